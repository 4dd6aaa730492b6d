import Verif.Props.C24
import Verif.Proof.HeadByte
import Verif.Proof.Grows
import Verif.Proof.Round
import Verif.Props.C77
/-
C24, C25: documents of version 1, and the documents Marshal writes.  C10: LooksLikeSereal.
-/
namespace Sereal

/-- C24 for all versions: the result decodes to the same, if no offset of a version 1 document leads into its first five bytes. -/
theorem C24_low_partial {cs : Codecs} {put : Placer} {dst : Buffer} {b r : Bytes}
    (hsane : SaneHeaderLength b) (hsz : b.length < 2 ^ 63)
    (hr : decompressDocument cs put dst b = .ok r) (hrsz : r.length < 2 ^ 63) (hlow : NoOffsetBelow 5 (r.drop 5)) (cfg : DCfg) :
    unmarshal cfg cs r = unmarshal cfg cs b := by
  obtain ⟨ver, dt, lf, suf, body, h⟩ := decompressDocument_isDoc hsane hsz hr
  rcases decompressDocument_doc h hr with ⟨h1, rfl⟩ | ⟨c, body', h1, h2, rfl⟩
  · rfl
  have hd : IsDoc (headBytes ver 0 lf suf ++ body') ver 0 lf suf body' :=
    ⟨rfl, h.version, by omega, h.varint, h.short, h.len, hrsz⟩
  have h5 : ∀ dt, headBytes ver dt lf suf = (magicOf ver ++ [UInt8.ofNat (ver + 16 * dt)]) ++ (lf ++ suf) := by
    intro dt; unfold headBytes; simp
  have hm : ∀ dt, (magicOf ver ++ [UInt8.ofNat (ver + 16 * dt)]).length = 5 := by
    intro dt; simp [magicOf_length]
  have e1 : bodyInput cs (headBytes ver 0 lf suf ++ body') = .ok (itemBuf ver (headBytes ver 0 lf suf) body') := bodyInput_raw hd
  have e2 : bodyInput cs b = .ok (itemBuf ver (headBytes ver dt lf suf) body') := bodyInput_doc (dc := some c) h h1 h2
  unfold unmarshal unmarshalHeaderBody
  rw [unmarshalRaw_body, unmarshalRaw_body, e1, e2]
  unfold itemBuf
  by_cases hver : ver = 1
  · rw [if_pos hver, if_pos hver]
    dsimp only
    have hx : (headBytes ver 0 lf suf ++ body').drop 5 = lf ++ suf ++ body' := by
      rw [h5 0, List.append_assoc, List.drop_append, List.drop_eq_nil_of_le (by rw [hm]; omega), hm]
      rfl
    rw [hx] at hlow
    have H : Beside 5 (headBytes ver 0 lf suf ++ body') (headBytes ver dt lf suf ++ body') := by
      rw [h5 0, h5 dt, List.append_assoc, List.append_assoc _ (lf ++ suf) body']
      exact hlow.beside (hm _) (hm _)
    have : decodeBody cfg (headBytes ver 0 lf suf ++ body') (headBytes ver 0 lf suf).length (.cell 1) DState.init =
        decodeBody cfg (headBytes ver dt lf suf ++ body') (headBytes ver dt lf suf).length (.cell 1) DState.init := by
      rw [headBytes_length, headBytes_length]
      unfold decodeBody
      rw [(SameD.decode H cfg _ (by omega) _).1, H.len]
    rw [this]
  · rw [if_neg hver, if_neg hver, headBytes_last h.varint.length_pos, headBytes_last h.varint.length_pos]

/-- DecompressDocument returns if the codec does and the body is not empty. -/
theorem decompressDocument_returns {cs : Codecs} {put : Placer} {dst : Buffer} {b : Bytes} {ver dt : Nat} {lf suf z body : Bytes}
    {c : Compressor} (hfit : put.Fits) (h : IsDoc b ver dt lf suf z) (h1 : documentDecompressor ver dt = .ok (some c))
    (h2 : decompress cs c z = .ok body) (hne : body ≠ []) : ∃ r, decompressDocument cs put dst b = .ok r := by
  have hl := headBytes_length ver dt lf suf
  have hbl : b.length = (headBytes ver dt lf suf).length + z.length := by rw [h.eq_head]; simp
  have hdf := dst.fits
  have hv := h.version.2
  have hinto : ∃ into, codecDst dst b (headBytes ver dt lf suf).length = .ok into ∧
      ∀ arr n, into = some (arr, n) → n ≤ arr.length := by
    unfold codecDst
    by_cases hd : dst.len ≥ b.length
    · rw [if_pos hd, if_pos (by omega)]
      refine ⟨_, rfl, ?_⟩
      rintro arr n hn
      cases hn
      rw [List.length_drop]; omega
    · rw [if_neg hd]
      exact ⟨none, rfl, by simp⟩
  obtain ⟨into, hi, hin⟩ := hinto
  unfold decompressDocument
  rw [checkHeader_head h.head h.version.2]
  show ∃ r, (documentDecompressor ver dt >>= _) = _
  rw [h1]
  change ∃ r, (ite (wrapInt (headerSize + (Head.hdr ver dt lf).suffixSize) > b.length ∨
      wrapInt (headerSize + (Head.hdr ver dt lf).suffixSize) < 0) _ _) = _
  rw [h.bodyStart, if_neg (by omega), Int.toNat_natCast]
  rw [hi]
  show ∃ r, (cutFrom b _ >>= _) = _
  rw [show cutFrom b (headBytes ver dt lf suf).length = .ok z by rw [cutFrom_ok (by omega), h.eq_head, List.drop_left]]
  show ∃ r, (decompress cs c z >>= _) = _
  rw [h2]
  show ∃ r, assemble (put into body) dst b _ body = _
  rw [h.eq_head]
  refine assemble_safe (by omega) h.doctype (.inr hne) fun cap hcap => ?_
  have := hfit into body hin
  rw [hcap] at this
  exact this

/-- C24, C25 for the documents of Marshal: DecompressDocument turns the compressed document into the document the Encoder writes
without compression, byte for byte; for all versions, headers, compressors (except version 1 with incremental snappy, see
C21_fails) and destinations. -/
theorem C24_marshal {cfg : ECfg} {cs : Codecs} {inp : Heap} {header : Option Val} {v : Val} {doc raw : Bytes} {put : Placer}
    {dst : Buffer} (hl : Lossless cs) (hfit : put.Fits) (hver : cfg.version ≤ 3)
    (hcombo : ¬ (cfg.ver = 1 ∧ cfg.compression = some (.snappy true)))
    (h : marshalWithHeader cfg cs inp header v = .ok doc)
    (hr : marshalWithHeader cfg.uncompressed cs inp header v = .ok raw)
    (hsz : doc.length ≤ 2 ^ 31 - 1) (hrs : raw.length ≤ 2 ^ 48) :
    decompressDocument cs put dst doc = .ok raw := by
  obtain ⟨dt, w, body, z, h1, h2, h3⟩ := comp_body hl hver hcombo h hr hsz hrs
  obtain ⟨pre, _, _, _, hp⟩ := itemBuf_pre cfg.ver dt (varint w.length) w
  have hdc : ∃ dc, documentDecompressor cfg.ver dt = .ok dc := by
    unfold bodyInput at h3
    rw [checkHeader_head h1.head h1.version.2] at h3
    dsimp only at h3
    rw [show (Head.hdr cfg.ver dt (varint w.length)).version = cfg.ver from rfl,
      show (Head.hdr cfg.ver dt (varint w.length)).doctype = dt from rfl] at h3
    cases hdc : documentDecompressor cfg.ver dt with
    | error e => rw [hdc] at h3; cases h3
    | ok dc => exact ⟨dc, rfl⟩
  obtain ⟨dc, hdc⟩ := hdc
  cases dc with
  | none =>
    have := documentDecompressor_none hdc
    subst this
    rw [decompressDocument_raw h1]
    rw [bodyInput_raw h1, hp, hp] at h3
    simp only [Except.ok.injEq, Prod.mk.injEq, List.append_cancel_left_eq, and_true] at h3
    rw [h1.eq_head, h2.eq_head, h3]
  | some c =>
    -- the body is not empty
    obtain ⟨lf2, suf2, body2, pre0, pre1, m1, _, m3, _⟩ := raw_body (cfg := cfg.uncompressed) hver rfl hr (by omega)
    obtain rfl := m1.body_unique h2
    have hne := encodeAfter_ne m3
    have hz : decompress cs c z = .ok body2 := by
      cases hz : decompress cs c z with
      | error e =>
        unfold bodyInput at h3
        rw [checkHeader_head h1.head h1.version.2] at h3
        dsimp only at h3
        rw [show (Head.hdr cfg.ver dt (varint w.length)).version = cfg.ver from rfl,
          show (Head.hdr cfg.ver dt (varint w.length)).doctype = dt from rfl, hdc] at h3
        dsimp only at h3
        have hbl : doc.length = (headBytes cfg.ver dt (varint w.length) w).length + z.length := by rw [h1.eq_head]; simp
        rw [h1.bodyStart, if_neg (by omega), Int.toNat_natCast] at h3
        have hd : doc.drop (headBytes cfg.ver dt (varint w.length) w).length = z := by
          rw [h1.eq_head, List.drop_left]
        rw [hd, hz] at h3
        cases h3
      | ok body' =>
        rw [bodyInput_doc (dc := some c) h1 hdc hz, hp, hp] at h3
        simp only [Except.ok.injEq, Prod.mk.injEq, List.append_cancel_left_eq, and_true] at h3
        rw [h3]
    obtain ⟨r, hr'⟩ := decompressDocument_returns (dst := dst) hfit h1 hdc hz hne
    rw [hr']
    rcases decompressDocument_doc h1 hr' with ⟨h4, _⟩ | ⟨c', body', h4, h5, rfl⟩
    · rw [hdc] at h4; cases h4
    · rw [hdc] at h4
      cases h4
      rw [hz] at h5
      cases h5
      rw [h2.eq_head]

/-- C10 without the condition on the length: documents that are not compressed satisfy LooksLikeSereal. -/
theorem C10_looks {cfg : ECfg} {cs : Codecs} {inp : Heap} {header : Option Val} {v : Val} {doc : Bytes}
    (hver : cfg.version ≤ 3) (hc : cfg.compression = none) (h : marshalWithHeader cfg cs inp header v = .ok doc)
    (hsize : doc.length < 2 ^ 63) : looksLikeSereal doc = true := by
  refine (C10 cfg cs inp header v doc hver h hsize).2.1 ?_
  obtain ⟨suf, w, pre, e1, e2, _, hd⟩ := marshalWithHeader_parts hc h
  have hw := List.length_pos_iff.2 (encodeAfter_ne e2)
  have hs : 1 ≤ suf.length := by
    obtain ⟨w, rfl, _⟩ := headerSuffix_split e1
    have := (isVarint_varint w.length).length_pos
    simp only [List.length_append]
    omega
  omega

/-- A version 1 document with a COPY tag, compressed by a codec that does nothing: `C24_low_partial` applies. -/
def docCopy8 : Bytes := [0x3d, 0x73, 0x72, 0x6c, 0x11, 0, 0x2b, 2, 0x61, 0x78, 0x2f, 8]

example : decompressDocument idCodecs snappyPut noBuffer docCopy8 =
      .ok [0x3d, 0x73, 0x72, 0x6c, 1, 0, 0x2b, 2, 0x61, 0x78, 0x2f, 8] ∧ SaneHeaderLength docCopy8 ∧
    NoOffsetBelow 5 [0, 0x2b, 2, 0x61, 0x78, 0x2f, 8] := by
  refine ⟨by decide, sane_zero (rest := [0x2b, 2, 0x61, 0x78, 0x2f, 8]) rfl, ?_⟩
  intro p b v r h hv _ hlt
  have hlen := congrArg List.length h
  simp only [List.length_cons, List.length_append, List.length_nil] at hlen
  match p, h with
  | [], h => injection h with h _; subst h; decide
  | [_], h => injection h with _ h; injection h with h _; subst h; decide
  | [_, _], h => injection h with _ h; injection h with _ h; injection h with h _; subst h; decide
  | [_, _, _], h => injection h with _ h; injection h with _ h; injection h with _ h; injection h with h _; subst h; decide
  | [_, _, _, _], h =>
    injection h with _ h; injection h with _ h; injection h with _ h; injection h with _ h; injection h with h _; subst h; decide
  | [_, _, _, _, _], h =>
    injection h with _ h; injection h with _ h; injection h with _ h; injection h with _ h; injection h with _ h
    injection h with _ h
    exfalso
    match v, hv with
    | x :: v', hv =>
      injection h with hx h
      subst hx
      have : v' = [] := by
        cases v' with
        | nil => rfl
        | cons y v' => exact absurd hv.1 (by decide)
      subst this
      simp only [groups] at hlt
      exact absurd hlt (by decide)
  | [_, _, _, _, _, _], h =>
    injection h with _ h; injection h with _ h; injection h with _ h; injection h with _ h; injection h with _ h
    injection h with _ h
    injection h with h _
    subst h
    decide
  | _ :: _ :: _ :: _ :: _ :: _ :: _ :: p, h => simp only [List.length_cons] at hlen; omega

/-- `C24_marshal` for version 1, with a buffer large enough for the result: a slice with a compressor that does nothing. -/
example : Lossless idCodecs ∧ snappyPut.Fits ∧
    marshalWithHeader { version := 1, compression := some (.snappy false), compressionThreshold := 0 } idCodecs Heap.init none (.str [104, 105]) =
      .ok [0x3d, 0x73, 0x72, 0x6c, 0x11, 0, 0x27, 2, 104, 105] ∧
    decompressDocument idCodecs snappyPut bigBuffer [0x3d, 0x73, 0x72, 0x6c, 0x11, 0, 0x27, 2, 104, 105] =
      .ok [0x3d, 0x73, 0x72, 0x6c, 1, 0, 0x27, 2, 104, 105] := by
  refine ⟨idCodecs_lossless, snappyPut_fits, ?_⟩
  decide +kernel

end Sereal

import Verif.Proof.Iso
import Verif.Props.C10
/-
Compressed documents.
-/
namespace Sereal

theorem compress_snappy {cs : Codecs} (hl : Lossless cs) {inc : Bool} {b z : Bytes}
    (h : compress cs (.snappy inc) b = .ok z) (hz : z.length ≤ 2 ^ 31 - 1) :
    decompress cs (.snappy inc) z = .ok b := by
  unfold compress at h
  dsimp only at h
  split at h
  · cases h
  obtain ⟨y, h1, h⟩ := Res.bind_ok.1 h
  have hd := hl.snappy b y h1
  cases inc with
  | false =>
    obtain rfl : y = z := by cases h; rfl
    show liftCodec (cs.snappyDec y) = _
    rw [hd]; rfl
  | true =>
    obtain rfl : varint y.length ++ y = z := by cases h; rfl
    have hy : y.length ≤ 2 ^ 31 - 1 := by simp at hz; omega
    rw [decompress_eq]; unfold decompress'
    dsimp only
    rw [if_pos rfl, varintdecode_varint_small _ _ (by omega)]
    show (do
      if (y.length : Int) < 0 ∨ _ then throw _
      liftCodec (cs.snappyDec _) : Res Bytes) = _
    rw [if_neg (by simp [maxInt32]; omega)]
    simp only [List.drop_left, Int.toNat_natCast, List.take_length]
    show liftCodec (cs.snappyDec y) = _
    rw [hd]; rfl

theorem compress_zlib {cs : Codecs} (hl : Lossless cs) {l l' : Int} {b z : Bytes}
    (h : compress cs (.zlib l) b = .ok z) (hz : z.length ≤ 2 ^ 31 - 1) (hb : b.length ≤ 2 ^ 48) :
    decompress cs (.zlib l') z = .ok b := by
  obtain ⟨y, h1, h⟩ := Res.bind_ok.1 h
  obtain ⟨hd1, hd2⟩ := hl.zlib _ b y h1
  obtain rfl : varint b.length ++ varint y.length ++ y = z := by cases h; rfl
  have hy : y.length ≤ 2 ^ 31 - 1 := by simp at hz; omega
  rw [decompress_eq]; unfold decompress'
  dsimp only
  rw [List.append_assoc, varintdecode_varint_small _ _ (by omega)]
  show (do
    let (cln, csz) ← varintdecode ((varint b.length ++ (varint y.length ++ y)).drop (varint b.length).length)
    _ : Res Bytes) = _
  rw [List.drop_left, varintdecode_varint_small _ _ (by omega)]
  show (do
    if (y.length : Int) < 0 ∨ _ then throw _
    zlibDecode cs _ _ : Res Bytes) = _
  rw [if_neg (by simp [maxInt32]; omega)]
  simp only [List.drop_left, Int.toNat_natCast, List.take_length]
  show zlibDecode cs b.length y = _
  unfold zlibDecode
  rw [hd1]
  show (do
    if ((b.length : Nat) : Int) < 0 ∨ _ then throw _
    liftCodec (cs.zlibInflate y) : Res Bytes) = _
  rw [if_neg (by simp [maxAlloc]; omega), hd2]
  rfl

/-- A compressed document and the uncompressed one: the decoder sees the same body. -/
theorem comp_body {cfg : ECfg} {cs : Codecs} {inp : Heap} {header : Option Val} {v : Val} {doc raw : Bytes}
    (hl : Lossless cs) (hver : cfg.version ≤ 3) (hcombo : ¬ (cfg.ver = 1 ∧ cfg.compression = some (.snappy true)))
    (h : marshalWithHeader cfg cs inp header v = .ok doc)
    (hr : marshalWithHeader cfg.uncompressed cs inp header v = .ok raw)
    (hsz : doc.length ≤ 2 ^ 31 - 1) (hrs : raw.length ≤ 2 ^ 48) :
    ∃ dt w body z, IsDoc doc cfg.ver dt (varint w.length) w z ∧ IsDoc raw cfg.ver 0 (varint w.length) w body ∧
      bodyInput cs doc = .ok (itemBuf cfg.ver (headBytes cfg.ver dt (varint w.length) w) body) := by
  obtain ⟨suffix, body, h1, h2, h3⟩ := marshal_ok.1 h
  obtain ⟨suffix', body', h1', h2', h3'⟩ := marshal_ok.1 hr
  rw [headerSuffix_uncompressed, h1] at h1'
  cases h1'
  have h2'' : encodeAfter cfg inp (if cfg.ver = 1 then encHeader cfg suffix serealRaw else [0]) v = .ok body' := by
    rw [← encodeAfter_uncompressed]; exact h2'
  rw [h2] at h2''
  cases h2''
  have hraw : raw = encHeader cfg suffix serealRaw ++ body := by
    rcases h3' with ⟨_, hd⟩ | ⟨c, h4, _⟩ | ⟨c, _, _, h4, _⟩
    · exact hd
    · cases h4
    · cases h4
  obtain ⟨w, rfl, hw⟩ := headerSuffix_split h1
  obtain ⟨hv1, hv3⟩ := ECfg.ver_range hver
  have hmk : ∀ (dt : Nat) (d x : Bytes), dt < 16 → d.length < 2 ^ 63 →
      d = encHeader cfg (varint w.length ++ w) dt ++ x → IsDoc d cfg.ver dt (varint w.length) w x := by
    intro dt d x hdt hdl hd
    rw [encHeader_eq hver hdt] at hd
    have hl : w.length < 2 ^ 64 := by
      have : w.length ≤ d.length := by rw [hd]; simp; omega
      omega
    exact ⟨by rw [hd]; simp, ⟨hv1, by omega⟩, by omega, isVarint_varint _, varint_length_le_ten hl,
      groups_varint _, hdl⟩
  have hR := hmk 0 raw body (by omega) (by omega) hraw
  have plain : doc = encHeader cfg (varint w.length ++ w) serealRaw ++ body →
      ∃ dt w body z, IsDoc doc cfg.ver dt (varint w.length) w z ∧ IsDoc raw cfg.ver 0 (varint w.length) w body ∧
      bodyInput cs doc = .ok (itemBuf cfg.ver (headBytes cfg.ver dt (varint w.length) w) body) := by
    intro hd
    have hD := hmk 0 doc body (by omega) (by omega) hd
    exact ⟨0, w, body, body, hD, hR, bodyInput_raw hD⟩
  rcases h3 with ⟨_, hd⟩ | ⟨c, h4, _, hd⟩ | ⟨c, z, dt, h4, _, hz, hdt, hd⟩
  · exact plain hd
  · exact plain hd
  · have hz' : z.length ≤ 2 ^ 31 - 1 := by rw [hd] at hsz; simp at hsz; omega
    have hb' : body.length ≤ 2 ^ 48 := by rw [hraw] at hrs; simp at hrs; omega
    rcases compressionDoctype_lt hdt with ⟨rfl, hv, i, rfl⟩ | ⟨rfl, hv, i, rfl⟩ | ⟨rfl, hv, l, rfl⟩
    · have hD := hmk 1 doc z (by omega) (by omega) hd
      have hi : i = false := by
        cases i with
        | false => rfl
        | true => exact absurd ⟨hv, h4⟩ hcombo
      subst hi
      refine ⟨1, w, body, z, hD, hR, bodyInput_doc (dc := some (.snappy false)) hD ?_ (compress_snappy hl hz hz')⟩
      rw [hv]; rfl
    · have hD := hmk 2 doc z (by omega) (by omega) hd
      have hi : i = true := by
        cases i with
        | true => rfl
        | false =>
          unfold compressionDoctype at hdt
          dsimp only at hdt
          rw [if_pos ⟨by omega, by simp⟩] at hdt
          cases hdt
      subst hi
      exact ⟨2, w, body, z, hD, hR, bodyInput_doc (dc := some (.snappy true)) hD rfl (compress_snappy hl hz hz')⟩
    · have hD := hmk 3 doc z (by omega) (by omega) hd
      refine ⟨3, w, body, z, hD, hR, bodyInput_doc (dc := some (.zlib 0)) hD ?_ (compress_zlib hl hz hz' hb')⟩
      unfold documentDecompressor
      simp only [serealRaw, serealSnappy, serealSnappyIncremental, serealZlib]
      rw [if_neg (by decide), if_neg (by decide), if_neg (by decide), if_pos trivial, if_neg (by omega)]

/-- Unmarshal depends only on what it hands to decode. -/
theorem unmarshal_congr {cfg : DCfg} {cs : Codecs} {b b' : Bytes} {x : Bytes × Nat}
    (h : bodyInput cs b = .ok x) (h' : bodyInput cs b' = .ok x) : unmarshal cfg cs b = unmarshal cfg cs b' := by
  unfold unmarshal unmarshalHeaderBody
  rw [unmarshalRaw_body, unmarshalRaw_body, h, h']

/-- The byte before the body does not depend on the document type. -/
theorem itemBuf_doctype {ver : Nat} {w body : Bytes} (hv : ver ≠ 1) (d d' : Nat) :
    itemBuf ver (headBytes ver d (varint w.length) w) body = itemBuf ver (headBytes ver d' (varint w.length) w) body := by
  unfold itemBuf
  rw [if_neg hv, if_neg hv]
  have hlast : ∀ d, (headBytes ver d (varint w.length) w).drop
      ((headBytes ver d (varint w.length) w).length - 1) =
      (varint w.length ++ w).drop ((varint w.length ++ w).length - 1) := by
    intro d
    have hne : 0 < (varint w.length ++ w).length := by
      have := varint_ne_nil w.length
      cases hx : varint w.length with
      | nil => exact absurd hx this
      | cons a b => simp
    have he : headBytes ver d (varint w.length) w =
        (magicOf ver ++ [UInt8.ofNat (ver + 16 * d)]) ++ (varint w.length ++ w) := by
      unfold headBytes; simp
    rw [he, List.drop_append, List.length_append, List.drop_of_length_le (by omega), List.nil_append]
    congr 1
    omega
  rw [hlast d, hlast d']

/-- Two documents in which the decoder finds the same encoded value. -/
theorem same_body {cfg : ECfg} {cs : Codecs} {inp : Heap} {v : Val} {d1 d2 pre0 pre1 pre2 body : Bytes}
    (hord : ∀ n ks, (cfg.ord n ks).Perm ks) (h : encodeAfter cfg inp pre0 v = .ok body)
    (h1 : bodyInput cs d1 = .ok (pre1 ++ body, pre1.length)) (h2 : bodyInput cs d2 = .ok (pre2 ++ body, pre2.length))
    (hl1 : pre1.length = pre0.length) (hl2 : pre2.length = pre0.length)
    (hsz : pre0.length + body.length < 2 ^ 63) :
    ∃ t, Written cfg inp false v t ∧ (Unshared cfg inp v → Solo cfg inp false v t) ∧
      Fits (pre0.length + body.length) t ∧
      (Fits maxSize t → ∃ j, Denotes wrtDialect (pre1 ++ body) pre1.length t j ∧
        Denotes wrtDialect (pre2 ++ body) pre2.length t j) ∧
      ∀ dcfg : DCfg, Fits maxSize t → Supported dcfg.view t →
        ∃ h1 v1 h2 v2, unmarshal dcfg cs d1 = .ok (h1, v1) ∧ unmarshal dcfg cs d2 = .ok (h2, v2) ∧
          Iso h1 h2 v1 v2 := by
  obtain ⟨t, hW, hS, hF, hD⟩ : ∃ t, Written cfg inp false v t ∧ (Unshared cfg inp v → Solo cfg inp false v t) ∧
      Fits (pre0.length + body.length) t ∧ ∀ pre' ext, pre'.length = pre0.length → Fits maxSize t →
        Denotes wrtDialect (pre' ++ body ++ ext) pre0.length t (pre0.length + body.length) := by
    by_cases hu : Unshared cfg inp v
    · obtain ⟨t, hA, hF, hD⟩ := encodeAfter_alone hord hu h hsz
      exact ⟨t, hA.1, fun _ => hA.solo, hF, hD⟩
    · obtain ⟨t, hW, hF, hD⟩ := encodeAfter_item hord h hsz
      exact ⟨t, hW, fun h => absurd h hu, hF, hD⟩
  have D1 := fun hf => hD pre1 [] hl1 hf
  have D2 := fun hf => hD pre2 [] hl2 hf
  simp only [List.append_nil] at D1 D2
  rw [← hl1] at D1
  rw [← hl2] at D2
  refine ⟨t, hW, hS, hF, fun hf => ⟨_, D1 hf, ?_⟩, fun dcfg hf hs => ?_⟩
  · rw [hl1.trans hl2.symm]; exact D2 hf
  · obtain ⟨T1, g1⟩ := D1 hf
    obtain ⟨T2, g2⟩ := D2 hf
    obtain ⟨x1, v1, u1, s1⟩ := unmarshal_complete (cfg := dcfg) h1 (by simp; omega) ⟨T1, g1.wrt_core.core_go⟩ hs
    obtain ⟨x2, v2, u2, s2⟩ := unmarshal_complete (cfg := dcfg) h2 (by simp; omega) ⟨T2, g2.wrt_core.core_go⟩ hs
    exact ⟨x1, v1, x2, v2, u1, u2, hs.iso s1 s2⟩

end Sereal

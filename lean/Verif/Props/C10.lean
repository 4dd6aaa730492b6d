import Verif.Proof.Marshal
/-
C10: produced documents identify themselves.  C22: the compression threshold.
C23: forbidden combinations of document type and version.
-/
namespace Sereal

/-- Every document produced (of less than 2^63 bytes, the largest size of a Go slice) has the layout
of a Sereal document of the encoder's version, satisfies LooksLikeSereal and passes the decoder's
header checks. -/
theorem C10 (cfg : ECfg) (cs : Codecs) (inp : Heap) (header : Option Val) (v : Val) (doc : Bytes)
    (hver : cfg.version ≤ 3) (h : marshalWithHeader cfg cs inp header v = .ok doc)
    (hsize : doc.length < 2 ^ 63) :
    (∃ dt lenField suffix body, IsDoc doc (if cfg.version = 0 then 3 else cfg.version) dt lenField suffix body ∧
      (header = none → suffix = [])) ∧
    (7 ≤ doc.length → looksLikeSereal doc = true) ∧
    (∃ hd, checkHeader doc = .ok hd ∧ hd.version = (if cfg.version = 0 then 3 else cfg.version)) := by
  obtain ⟨suffix, body, h1, h2, h3⟩ := marshal_ok.1 h
  obtain ⟨w, rfl, hw⟩ := headerSuffix_split h1
  obtain ⟨hv1, hv3⟩ := ECfg.ver_range hver
  have main : ∀ dt z, dt < 16 → doc = encHeader cfg (varint w.length ++ w) dt ++ z →
      IsDoc doc cfg.ver dt (varint w.length) w z ∧ Head doc cfg.ver dt (varint w.length) (w ++ z) := by
    intro dt z hdt hd
    rw [encHeader_eq hver hdt] at hd
    have hl : w.length < 2 ^ 64 := by
      have : w.length ≤ doc.length := by rw [hd]; simp; omega
      omega
    refine ⟨⟨?_, ⟨hv1, by omega⟩, hdt, isVarint_varint _, varint_length_le_ten hl, groups_varint _, hsize⟩,
      ⟨hv1, by omega, hdt, isVarint_varint _, varint_length_le_ten hl, ?_⟩⟩
    · rw [hd]; simp
    · rw [hd]; simp
  obtain ⟨dt, z, hdt, hd⟩ : ∃ dt z, dt < 16 ∧ doc = encHeader cfg (varint w.length ++ w) dt ++ z := by
    rcases h3 with ⟨_, hd⟩ | ⟨c, _, _, hd⟩ | ⟨c, z, dt, _, _, _, h4, hd⟩
    · exact ⟨0, body, by omega, hd⟩
    · exact ⟨0, body, by omega, hd⟩
    · refine ⟨dt, z, ?_, hd⟩
      rcases compressionDoctype_lt h4 with ⟨rfl, _⟩ | ⟨rfl, _⟩ | ⟨rfl, _⟩ <;> omega
  obtain ⟨hi, hh⟩ := main dt z hdt hd
  refine ⟨⟨dt, _, w, z, hi, hw⟩, fun hl => ?_, ⟨_, checkHeader_head hh (by omega), rfl⟩⟩
  unfold looksLikeSereal
  rw [if_neg (by omega), readHeader_head hh]

/-- A document with any body byte at all is at least seven bytes long, so LooksLikeSereal applies: the
encoder always emits at least one body byte when the document is not compressed. -/
example : looksLikeSereal [0x3d, 0xf3, 0x72, 0x6c, 3, 0, 0x25] = true := by decide

/-- Non-vacuity: marshalling nil with version 2. -/
example : marshalWithHeader { version := 2 } ⟨fun _ => .ok [], fun _ => .ok [], fun _ _ => .ok [],
    fun _ => .ok (), fun _ => .ok [], fun _ _ => .ok [], fun _ => .ok []⟩ Heap.init none .nil =
    .ok [0x3d, 0x73, 0x72, 0x6c, 2, 0, 0x25] := by decide +kernel

/-! ### C22 -/

/-- The encoder configuration with compression switched off. -/
def ECfg.uncompressed (cfg : ECfg) : ECfg := { cfg with compression := none }

theorem encodeFields_uncompressed (cfg : ECfg) (rec : Val → E Unit) (tags : List (Bytes × Field))
    (ks : List Bytes) : encodeFields cfg.uncompressed rec tags ks = encodeFields cfg rec tags ks := by
  induction ks with
  | nil => rfl
  | cons k ks ih => simp only [encodeFields]; rw [ih]; rfl

theorem encodeStrct_uncompressed (cfg : ECfg) (rec : Val → E Unit) (name : Bytes) (fs : List Field) :
    encodeStrct cfg.uncompressed rec name fs = encodeStrct cfg rec name fs := by
  unfold encodeStrct
  simp only [encodeFields_uncompressed]
  rfl

theorem encodeVal_uncompressed (cfg : ECfg) (inp : Heap)
    (rec : Option (Val → Bool → Bool → E Unit)) (v : Val) :
    encodeVal cfg.uncompressed inp rec v = encodeVal cfg inp rec v := by
  induction v with
  | obj c r ih =>
    funext a b
    simp only [encodeVal]
    rw [ih]; rfl
  | weak r ih =>
    funext a b
    simp only [encodeVal]
    rw [ih]
  | marshaler c r u ih =>
    funext a b
    simp only [encodeVal]
    rw [ih]; rfl
  | frozen c d =>
    funext a b
    simp only [encodeVal, encodeStrct_uncompressed]
  | strct n a =>
    funext a b
    simp only [encodeVal, encodeStrct_uncompressed]
  | _ => rfl

theorem encode_uncompressed (cfg : ECfg) (inp : Heap) (d : Nat) :
    encode cfg.uncompressed inp d = encode cfg inp d := by
  have h1 : encode cfg.uncompressed inp 1 = encode cfg inp 1 := by
    funext v; exact encodeVal_uncompressed cfg inp none v
  have : ∀ d, encode cfg.uncompressed inp (d + 1) = encode cfg inp (d + 1) := by
    intro d
    induction d with
    | zero => exact h1
    | succ d ih =>
      funext v
      show encodeVal cfg.uncompressed inp (some (encode cfg.uncompressed inp (d + 1))) v =
        encodeVal cfg inp (some (encode cfg inp (d + 1))) v
      rw [ih, encodeVal_uncompressed]
  cases d with
  | zero => funext v; exact encodeVal_uncompressed cfg inp none v
  | succ d => exact this d

theorem encodeAfter_uncompressed (cfg : ECfg) (inp : Heap) (pre : Bytes) (v : Val) :
    encodeAfter cfg.uncompressed inp pre v = encodeAfter cfg inp pre v := by
  unfold encodeAfter
  rw [encode_uncompressed]
  rfl

theorem headerSuffix_uncompressed (cfg : ECfg) (inp : Heap) (header : Option Val) :
    headerSuffix cfg.uncompressed inp header = headerSuffix cfg inp header := by
  unfold headerSuffix
  cases header with
  | none => rfl
  | some hv => dsimp only; rw [encodeAfter_uncompressed]; rfl

/-- `doc` is a document without compression whose body is `body`. -/
def RawBody (doc body : Bytes) : Prop := ∃ ver lenField suffix, IsDoc doc ver 0 lenField suffix body

theorem isVarint_split {v w r1 r2 : Bytes} (hv : IsVarint v) (hw : IsVarint w) (h : v ++ r1 = w ++ r2) :
    v = w ∧ r1 = r2 := by
  have := isVarint_prefix_unique hv hw h
  subst this
  exact ⟨rfl, by simpa using h⟩

/-- The body of a raw document is unique. -/
theorem IsDoc.body_unique {b : Bytes} {ver ver' dt dt' : Nat} {l l' s s' body body' : Bytes}
    (h : IsDoc b ver dt l s body) (h' : IsDoc b ver' dt' l' s' body') : body = body' := by
  have e : ∀ {ver dt l s body}, IsDoc b ver dt l s body → b.drop 5 = l ++ (s ++ body) := by
    intro ver dt l s body h
    rw [h.eq, show (5 : Nat) = (magicOf ver ++ [UInt8.ofNat (ver + 16 * dt)]).length by
      simp [magicOf_length]]
    rw [List.append_assoc, List.append_assoc, List.drop_left]
  have h1 := e h
  have h2 := e h'
  rw [h1] at h2
  obtain ⟨rfl, h3⟩ := isVarint_split h.varint h'.varint h2
  have hl : s.length = s'.length := by rw [← h.len, ← h'.len]
  exact (List.append_inj h3 hl).2

/-- The threshold is exact.  Let `doc0` be the document produced with compression switched off and
`body` its body.  If a compressor is set and the threshold is 0 or `body` has at least threshold
bytes, every document produced is marked as compressed (type nibble 1, 2 or 3) and contains what the
codec returned; otherwise exactly `doc0` is produced. -/
theorem C22 (cfg : ECfg) (cs : Codecs) (inp : Heap) (header : Option Val) (v : Val) (doc0 body : Bytes)
    (hver : cfg.version ≤ 3) (h0 : marshalWithHeader cfg.uncompressed cs inp header v = .ok doc0)
    (hb : RawBody doc0 body) :
    (cfg.compression = none ∨
        (cfg.compressionThreshold ≠ 0 ∧ (body.length : Int) < cfg.compressionThreshold) →
      marshalWithHeader cfg cs inp header v = .ok doc0) ∧
    (∀ c, cfg.compression = some c →
        cfg.compressionThreshold = 0 ∨ (body.length : Int) ≥ cfg.compressionThreshold →
      ∀ doc, marshalWithHeader cfg cs inp header v = .ok doc →
        ∃ z t, compress cs c body = .ok z ∧ z <:+ doc ∧ doc[4]? = some t ∧
          1 ≤ UInt8.toNat t / 16 ∧ UInt8.toNat t / 16 ≤ 3) := by
  obtain ⟨suffix, body', h1, h2, h3⟩ := marshal_ok.1 h0
  rw [headerSuffix_uncompressed] at h1
  rw [encodeAfter_uncompressed] at h2
  have hdoc : doc0 = encHeader cfg suffix serealRaw ++ body' := by
    rcases h3 with ⟨_, hd⟩ | ⟨c, hc, _⟩ | ⟨c, z, dt, hc, _⟩
    · exact hd
    · cases hc
    · cases hc
  have hbody : body = body' := by
    obtain ⟨ver, lf, s, hd⟩ := hb
    have hd' : ∃ w, suffix = varint w.length ++ w ∧ (header = none → w = []) := headerSuffix_split h1
    obtain ⟨w, rfl, _⟩ := hd'
    refine IsDoc.body_unique hd (ver' := cfg.ver) (dt' := 0) (l' := varint w.length) (s' := w) ?_
    have hl : w.length < 2 ^ 64 := by
      have : w.length ≤ doc0.length := by rw [hdoc, encHeader_eq hver (by decide)]; simp; omega
      have := hd.size
      omega
    have := ECfg.ver_range hver
    refine ⟨?_, ⟨this.1, by omega⟩, by omega, isVarint_varint _, varint_length_le_ten hl, groups_varint _, hd.size⟩
    rw [hdoc, encHeader_eq hver (by decide)]
    simp [serealRaw]
  subst hbody
  constructor
  · intro hc
    refine marshal_ok.2 ⟨suffix, body, h1, h2, ?_⟩
    rcases hc with hc | ⟨hc1, hc2⟩
    · exact Or.inl ⟨hc, hdoc⟩
    · cases hcc : cfg.compression with
      | none => exact Or.inl ⟨rfl, hdoc⟩
      | some c =>
        refine Or.inr (Or.inl ⟨c, rfl, ?_, hdoc⟩)
        unfold compresses
        omega
  · intro c hc hth doc hm
    obtain ⟨suffix', body', h1', h2', h3'⟩ := marshal_ok.1 hm
    rw [h1] at h1'
    cases h1'
    rw [show (if cfg.uncompressed.ver = 1 then encHeader cfg.uncompressed suffix serealRaw else [0]) =
      (if cfg.ver = 1 then encHeader cfg suffix serealRaw else [0]) from rfl] at h2
    rw [h2] at h2'
    cases h2'
    rcases h3' with ⟨hn, _⟩ | ⟨_, _, hn, _⟩ | ⟨c', z, dt, hc', _, h4, h5, hd⟩
    · rw [hc] at hn; cases hn
    · exact absurd hth hn
    · rw [hc] at hc'
      cases hc'
      have hr : 1 ≤ dt ∧ dt ≤ 3 := by
        rcases compressionDoctype_lt h5 with ⟨rfl, _⟩ | ⟨rfl, _⟩ | ⟨rfl, _⟩ <;> omega
      have hv := ECfg.ver_range hver
      refine ⟨z, UInt8.ofNat (cfg.ver + 16 * dt), h4, ⟨_, hd.symm⟩, ?_, ?_⟩
      · rw [hd, encHeader_eq hver (by omega), List.append_assoc,
          List.getElem?_append_right (by rw [magicOf_length]; omega), magicOf_length]
        rfl
      · rw [ofNibbles (by omega) (by omega)]; omega

/-! ### C23 -/

/-- Which document types are allowed in which protocol version (sereal_spec.pod, document types and
protocol changes). -/
def TypeAllowed (version doctype : Nat) : Prop :=
  doctype = 0 ∨ (doctype = 1 ∧ version = 1) ∨ doctype = 2 ∨ (doctype = 3 ∧ 3 ≤ version) ∨
    (doctype = 4 ∧ 4 ≤ version)

/-- Documents produced have an allowed document type; UnmarshalHeaderBody rejects every document whose
type is not allowed for its version, before touching anything. -/
theorem C23 :
    (∀ (cfg : ECfg) (cs : Codecs) (inp : Heap) (header : Option Val) (v : Val) (doc : Bytes),
      cfg.version ≤ 3 → marshalWithHeader cfg cs inp header v = .ok doc →
      ∃ t, doc[4]? = some t ∧ TypeAllowed (UInt8.toNat t % 16) (UInt8.toNat t / 16)) ∧
    (∀ (cfg : DCfg) (cs : Codecs) (b : Bytes) (vh vb : Option Loc) (s : DState) (t : UInt8),
      b[4]? = some t → ¬ TypeAllowed (t.toNat % 16) (t.toNat / 16) →
      ∃ e, unmarshalHeaderBody cfg cs b vh vb s = (.error (.err e), s)) := by
  constructor
  · intro cfg cs inp header v doc hver h
    obtain ⟨suffix, body, h1, h2, h3⟩ := marshal_ok.1 h
    have hv := ECfg.ver_range hver
    have get : ∀ dt z, dt < 16 → doc = encHeader cfg suffix dt ++ z →
        doc[4]? = some (UInt8.ofNat (cfg.ver + 16 * dt)) := by
      intro dt z hdt hd
      rw [hd, encHeader_eq hver (by omega), List.append_assoc,
          List.getElem?_append_right (by rw [magicOf_length]; omega), magicOf_length]
      rfl
    rcases h3 with ⟨_, hd⟩ | ⟨c, _, _, hd⟩ | ⟨c, z, dt, _, _, _, h4, hd⟩
    · refine ⟨_, get 0 body (by omega) hd, ?_⟩
      rw [ofNibbles (by omega) (by omega)]; left; omega
    · refine ⟨_, get 0 body (by omega) hd, ?_⟩
      rw [ofNibbles (by omega) (by omega)]; left; omega
    · have hr := compressionDoctype_lt h4
      refine ⟨_, get dt z (by omega) hd, ?_⟩
      rw [ofNibbles (by omega) (by omega)]
      have e1 : (cfg.ver + 16 * dt) % 16 = cfg.ver := by omega
      have e2 : (cfg.ver + 16 * dt) / 16 = dt := by omega
      rw [e1, e2]
      unfold TypeAllowed
      omega
  · intro cfg cs b vh vb s t ht hn
    unfold unmarshalHeaderBody; rw [unmarshalRaw_eq]; unfold unmarshalRaw'
    cases hc : checkHeader b with
    | error e =>
      obtain ⟨er, rfl⟩ := checkHeader_error hc
      rw [D.bind_err (D.lift_error.2 ⟨rfl, rfl⟩)]
      exact ⟨er, rfl⟩
    | ok hd =>
      rw [D.bind_eq (D.lift_ok.2 ⟨rfl, rfl⟩)]
      obtain ⟨_, _, _, ⟨t', ht', h1, h2⟩, _⟩ := checkHeader_ok hc
      rw [ht] at ht'
      cases ht'
      rw [shift4] at h1
      rw [and15] at h2
      cases hdd : documentDecompressor hd.version hd.doctype with
      | error e =>
        obtain ⟨er, rfl⟩ := documentDecompressor_error hdd
        dsimp only
        rw [D.bind_err (D.lift_error.2 ⟨rfl, rfl⟩)]
        exact ⟨er, rfl⟩
      | ok dc =>
        exfalso
        apply hn
        rw [← h1, ← h2]
        unfold documentDecompressor at hdd
        unfold TypeAllowed
        repeat' split at hdd
        all_goals first
          | (simp only [serealRaw, serealSnappy, serealSnappyIncremental, serealZlib, serealZstd] at *; omega)
          | cases hdd

/-- Non-vacuity: type 3 in version 2 and type 7 anywhere are forbidden, type 3 in version 3 is not. -/
example : ¬ TypeAllowed ((0x32 : UInt8).toNat % 16) ((0x32 : UInt8).toNat / 16) ∧ ¬ TypeAllowed 4 7 ∧
    TypeAllowed ((0x33 : UInt8).toNat % 16) ((0x33 : UInt8).toNat / 16) := by
  simp [TypeAllowed]

end Sereal

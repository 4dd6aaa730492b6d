import Verif.Proof.Fixed
import Verif.Proof.Arrives
import Verif.Proof.Comp
import Verif.Props.C06
/-
C08: user header data survives.
-/
namespace Sereal

/-- UnmarshalHeaderBody on a document with user data: first the header is decoded, then the body as by
Unmarshal. -/
theorem unmarshalRaw_header {cfg : DCfg} {cs : Codecs} {b : Bytes} {ver dt : Nat} {lf w body : Bytes}
    (h : IsDoc b ver dt lf (1 :: w) body) {dc : Option Compressor} (hdc : documentDecompressor ver dt = .ok dc)
    (p : Loc) (vb : Option Loc) (s : DState) :
    unmarshalRaw cfg cs b (some p) vb s =
      match withTracked (decode cfg (headBytes ver dt lf (1 :: w))
          (fuelFor (headBytes ver dt lf (1 :: w)).length) (5 + lf.length + 1) p) s with
      | (.ok _, s1) => unmarshalRaw cfg cs b none vb s1
      | (.error e, s1) => (.error e, s1) := by
  have hl := headBytes_length ver dt lf (1 :: w)
  have hbs := h.bodyStart
  have hlen : b.length = (headBytes ver dt lf (1 :: w)).length + body.length := by rw [h.eq_head]; simp
  have hsz := h.size
  have hne : (Head.hdr ver dt lf).suffixSize ≠ 1 := by
    have hg := h.len
    unfold Head.hdr
    dsimp only
    have h0 : lf ≠ [] := by
      intro h0
      have := h.varint
      rw [h0] at this
      cases this
    have h1 : 0 < lf.length := List.length_pos_iff.2 h0
    simp only [List.length_cons] at hl hg
    rw [hg, sgn_small (by omega), wrapInt_small (by omega) (by omega)]
    omega
  have htake : b.take (headBytes ver dt lf (1 :: w)).length = headBytes ver dt lf (1 :: w) := by
    rw [h.eq_head, List.take_left]
  have hbyte : b[5 + lf.length]? = some 1 := by
    have : b = (magicOf ver ++ [UInt8.ofNat (ver + 16 * dt)] ++ lf) ++ 1 :: (w ++ body) := by
      rw [h.eq]; simp
    rw [this, show 5 + lf.length = (magicOf ver ++ [UInt8.ofNat (ver + 16 * dt)] ++ lf).length by
      simp [magicOf_length]; omega]
    simp
  rw [unmarshalRaw_eq, unmarshalRaw_eq]
  unfold unmarshalRaw'
  have hch := checkHeader_head h.head h.version.2
  rw [D.bind_eq (D.lift_ok.2 ⟨hch, rfl⟩)]
  dsimp only
  rw [show (Head.hdr ver dt lf).version = ver from rfl, show (Head.hdr ver dt lf).doctype = dt from rfl,
    D.bind_eq (D.lift_ok.2 ⟨hdc, rfl⟩)]
  rw [hbs, D.bind_eq (D.failIf_pass (by omega)), Int.toNat_natCast]
  rw [if_pos hne]
  rw [show (Head.hdr ver dt lf).suffixStart = 5 + lf.length from rfl, D.bind_eq (byteAt_apply hbyte s),
    if_pos (by decide), D.bind_apply, htake]
  generalize withTracked (decode cfg (headBytes ver dt lf (1 :: w)) _ _ p) s = r
  obtain ⟨r, s1⟩ := r
  cases r with
  | error e => rfl
  | ok j =>
    dsimp only
    rw [D.bind_eq (s := s1) (D.lift_ok.2 ⟨hch, rfl⟩)]
    rw [show (Head.hdr ver dt lf).version = ver from rfl, show (Head.hdr ver dt lf).doctype = dt from rfl,
      D.bind_eq (s := s1) (D.lift_ok.2 ⟨hdc, rfl⟩)]
    rw [hbs, D.bind_eq (s := s1) (D.failIf_pass (by omega)), Int.toNat_natCast]
    rw [htake]

theorem init2_pre (c : ViewCfg) :
    Pre c { DState.init2 with tracked := fun _ => none } (fun _ => none) (· = 0) (.cell 1) .cell .nil := by
  refine ⟨⟨?_, ⟨rfl, rfl⟩, ?_, ?_⟩, ?_, ?_, .cell 1, rfl⟩
  · rintro a rfl; decide
  · intro o; simp
  · intro o t h; cases h
  · decide
  · decide

/-- After an item the decoder can start on another one, in another variable. -/
theorem Done.next {c : ViewCfg} {s : DState} {T T' : Seen} {F : Addr → Prop} {loc : Loc} {K : Val → HObj}
    {t : Tree} {s' : DState} (d : Done c s T F loc K t s' T') {a : Addr} (ha : a < s.heap.next) (hF : ¬ F a)
    (hne : a ≠ loc.addr) (hm : s.heap.mem a = .cell .nil) :
    ∃ F' v, F' loc.addr ∧ s'.heap.mem loc.addr = K v ∧ ShowsF c F' s'.heap v t ∧
      Pre c { s' with tracked := fun _ => none } (fun _ => none) F' (.cell a) .cell .nil := by
  obtain ⟨F', v, A, h1, h2, h3⟩ := d
  refine ⟨F', v, h1, h2, h3, ⟨⟨A.inv.lt, A.inv.canon, fun o => ⟨fun _ => rfl, fun _ => rfl⟩, fun o t h => by cases h⟩,
    ?_, Nat.lt_of_lt_of_le ha A.frame.next, .cell a, ?_⟩⟩
  · intro h
    rcases A.new a h with h | h | h
    · exact hF h
    · exact hne h
    · exact absurd ha (by omega)
  · rw [← hm]
    exact A.frame.same a ha hne

/-- Header and body are decoded one after the other. -/
theorem unmarshalBoth_complete {cfg : DCfg} {cs : Codecs} {b : Bytes} {ver dt : Nat} {lf w body : Bytes}
    (h : IsDoc b ver dt lf (1 :: w) body) {dc : Option Compressor} (hdc : documentDecompressor ver dt = .ok dc)
    {th tb : Tree} {j : Nat} (hh : Denotes goDialect (headBytes ver dt lf (1 :: w)) (5 + lf.length + 1) th j)
    (hsh : Supported cfg.view th) {buf : Bytes} {i k : Nat} (hb : bodyInput cs b = .ok (buf, i))
    (hlen : buf.length < 2 ^ 63) (hd : Denotes goDialect buf i tb k) (hsb : Supported cfg.view tb) :
    ∃ h' vh vb, unmarshalBoth cfg cs b = .ok (h', vh, vb) ∧ Shows cfg.view h' vh th ∧ Shows cfg.view h' vb tb := by
  have hl1 : (headBytes ver dt lf (1 :: w)).length < 2 ^ 63 := by
    have := h.size
    rw [h.eq_head] at this
    simp only [List.length_append] at this
    omega
  obtain ⟨T, g⟩ := hh
  obtain ⟨T2, g2⟩ := hd
  obtain ⟨s1, e1, D1⟩ := decode_complete (cfg := cfg) hl1 g hsh
    (fuelFor (headBytes ver dt lf (1 :: w)).length) (by unfold need fuelFor; simp; omega) _ _ _ _ (init2_pre cfg.view) rfl
  obtain ⟨F', v, h1, h2, h3, P⟩ := D1.next (a := 2) (by decide) (by decide) (by decide) rfl
  have hcd : ({ s1 with tracked := fun _ => none } : DState).cd = false := by
    obtain ⟨_, _, A, _⟩ := D1
    have := A.depth
    unfold DState.cd
    rw [show ({ s1 with tracked := fun _ => none } : DState).copyDepth = s1.copyDepth from rfl, this]
    rfl
  obtain ⟨s2, e2, F2, v2, A2, h4, h5, h6⟩ := decode_complete (cfg := cfg) hlen g2 hsb (fuelFor buf.length)
    (by unfold need fuelFor; simp; omega) _ _ _ _ P hcd
  have hne : ¬ F' 2 := P.free
  have hag : Agree F' s1.heap s2.heap := fun a ha => A2.frame.same a (P.inv.lt a ha) (by
    rintro rfl; exact hne ha)
  have hm1 : s2.heap.mem 1 = .cell v := (hag 1 h1).trans h2
  refine ⟨s2.heap, v, v2, ?_, h3 _ hag, h6.shows⟩
  unfold unmarshalBoth unmarshalHeaderBody
  rw [unmarshalRaw_header h hdc]
  unfold withTracked
  rw [e1]
  dsimp only
  rw [unmarshalRaw_body, hb]
  dsimp only
  unfold decodeBody withTracked
  dsimp only
  rw [e2]
  have c1 : s2.heap.cellAt 1 = v := by unfold Heap.cellAt; rw [hm1]
  have c2 : s2.heap.cellAt 2 = v2 := by unfold Heap.cellAt; rw [show s2.heap.mem 2 = .cell v2 from h5]
  show Except.ok (s2.heap, s2.heap.cellAt 1, s2.heap.cellAt 2) = _
  rw [c1, c2]

/-- UnmarshalHeader decodes the header alone. -/
theorem unmarshalHeader_complete {cfg : DCfg} {cs : Codecs} {b : Bytes} {ver dt : Nat} {lf w body : Bytes}
    (h : IsDoc b ver dt lf (1 :: w) body) {dc : Option Compressor} (hdc : documentDecompressor ver dt = .ok dc)
    {th : Tree} {j : Nat} (hh : Denotes goDialect (headBytes ver dt lf (1 :: w)) (5 + lf.length + 1) th j)
    (hsh : Supported cfg.view th) :
    ∃ h' v, unmarshalHeader cfg cs b = .ok (h', v) ∧ Shows cfg.view h' v th := by
  have hl1 : (headBytes ver dt lf (1 :: w)).length < 2 ^ 63 := by
    have := h.size
    rw [h.eq_head] at this
    simp only [List.length_append] at this
    omega
  obtain ⟨T, g⟩ := hh
  obtain ⟨s1, e1, F', v, A, h1, h2, h3⟩ := decode_complete (cfg := cfg) hl1 g hsh
    (fuelFor (headBytes ver dt lf (1 :: w)).length) (by unfold need fuelFor; simp; omega) _ _ _ _ (init_pre cfg.view) rfl
  refine ⟨s1.heap, v, ?_, h3.shows⟩
  unfold unmarshalHeader unmarshalHeaderBody
  rw [unmarshalRaw_header h hdc]
  unfold withTracked
  rw [e1]
  dsimp only
  have c1 : s1.heap.cellAt 1 = v := by unfold Heap.cellAt; rw [show s1.heap.mem 1 = .cell v from h2]
  have hch := checkHeader_head h.head h.version.2
  have hlen : b.length = (headBytes ver dt lf (1 :: w)).length + body.length := by rw [h.eq_head]; simp
  have hr : unmarshalRaw cfg cs b none none { s1 with tracked := fun _ => none } = (.ok (), { s1 with tracked := fun _ => none }) := by
    rw [unmarshalRaw_eq]
    unfold unmarshalRaw'
    rw [D.bind_eq (D.lift_ok.2 ⟨hch, rfl⟩)]
    dsimp only
    rw [show (Head.hdr ver dt lf).version = ver from rfl, show (Head.hdr ver dt lf).doctype = dt from rfl,
      D.bind_eq (D.lift_ok.2 ⟨hdc, rfl⟩)]
    rw [h.bodyStart, D.bind_eq (D.failIf_pass (by omega))]
    rfl
  rw [hr]
  show Except.ok (s1.heap, s1.heap.cellAt 1) = _
  rw [c1]

theorem ArrivesAs.alike {c c' : ECfg} {w : ViewCfg} {h h' : Heap} {rn : Bool} {v v' : Val}
    (ha : ArrivesAs c w h h' rn v v') (hc : c.Alike c') : ArrivesAs c' w h h' rn v v' := by
  have hpc := hc.perl
  induction ha with
  | nil h1 => exact .nil h1
  | bool => exact .bool
  | int h1 => exact .int h1
  | uint h1 => exact .uint h1
  | f32 => exact .f32
  | f64 => exact .f64
  | str => exact .str
  | bin => exact .bin
  | jnumInt h1 h2 h3 h4 => exact .jnumInt h1 h2 h3 h4
  | jnumBig h1 h2 => exact .jnumBig h1 h2
  | jnumFloat h1 h2 => exact .jnumFloat h1 (hc.float ▸ h2)
  | jnumText h1 h2 => exact .jnumText h1 (hc.float ▸ h2)
  | nbool => exact .nbool
  | nint h1 h2 => exact .nint h1 h2
  | nintWrap h1 h2 h3 => exact .nintWrap h1 h2 h3
  | nf32 => exact .nf32
  | nf64 => exact .nf64
  | nstr => exact .nstr
  | slice h1 _ ih => exact .slice (hpc ▸ h1) ih
  | rslice h1 _ ih => exact .rslice (hpc ▸ h1) ih
  | smap h1 h2 h3 _ ih => exact .smap (hpc ▸ h1) h2 h3 ih
  | rmap h1 h2 h3 _ ih => exact .rmap (hpc ▸ h1) h2 h3 ih
  | strct h0 h1 h2 h3 _ ih => exact .strct h0 (hpc ▸ h1) h2 h3 ih
  | undef h1 => exact .undef h1
  | obj h1 _ ih => exact .obj h1 ih
  | weak h1 _ ih => exact .weak h1 ih
  | regexp h1 => exact .regexp h1
  | frozen h0 h1 h2 h3 h4 h5 => exact .frozen h0 (hpc ▸ h1) h2 h3 h4 h5
  | marshaler h1 h2 => exact .marshaler (hc.freeze ▸ h1) h2
  | marshalerOff h1 _ ih => exact .marshalerOff (hc.freeze ▸ h1) ih
  | nilptr h1 h2 => exact .nilptr h1 h2
  | perlPtr h1 _ ih => exact .perlPtr h1 ih
  | ptr h1 h2 _ ih => exact .ptr h1 h2 ih

/-- The two documents have the same user data in their headers. -/
def SameHeader (doc doc' : Bytes) : Prop :=
  ∃ ver dt dt' lf suf body body', IsDoc doc ver dt lf suf body ∧ IsDoc doc' ver dt' lf suf body'

/-- The encoder with DisableDedup set. -/
def ECfg.noDedup (cfg : ECfg) : ECfg := { cfg with disableDedup := true }

/-- The user data in the header of a document. -/
theorem header_suf {cfg : ECfg} {cs : Codecs} {inp : Heap} {hv v : Val} {doc : Bytes} {ver dt : Nat}
    {lf suf body : Bytes} (hver : cfg.version ≤ 3) (hver1 : cfg.version ≠ 1)
    (h : marshalWithHeader cfg cs inp (some hv) v = .ok doc) (hd : IsDoc doc ver dt lf suf body) :
    ∃ w, suf = 1 :: w ∧ encodeAfter cfg inp [1] hv = .ok w := by
  obtain ⟨suffix, body', h1, h2, h3⟩ := marshal_ok.1 h
  have h4 : ∃ dt' z, dt' < 16 ∧ doc = encHeader cfg suffix dt' ++ z := by
    rcases h3 with ⟨_, h3⟩ | ⟨_, _, _, h3⟩ | ⟨c, z, dt', _, _, _, h5, h3⟩
    · exact ⟨_, _, by decide, h3⟩
    · exact ⟨_, _, by decide, h3⟩
    · refine ⟨_, _, ?_, h3⟩
      rcases compressionDoctype_lt h5 with ⟨rfl, _⟩ | ⟨rfl, _⟩ | ⟨rfl, _⟩ <;> decide
  obtain ⟨dt', z, h16, h4⟩ := h4
  have hv2 : 2 ≤ cfg.ver := by unfold ECfg.ver; split <;> omega
  rcases headerSuffix_ok h1 with ⟨_, h5 | h5⟩ | ⟨hv', w, h5, _, h6, h7⟩
  · cases h5
  · omega
  · cases h5
    refine ⟨w, ?_, h6⟩
    have e1 : doc.drop 5 = lf ++ (suf ++ body) := by
      rw [hd.eq, show (5 : Nat) = (magicOf ver ++ [UInt8.ofNat (ver + 16 * dt)]).length by
        simp [magicOf_length]]
      rw [List.append_assoc, List.append_assoc, List.drop_left]
    have e2 : doc.drop 5 = varint (1 + w.length) ++ (1 :: w ++ z) := by
      rw [h4, encHeader_eq hver h16, h7, show (5 : Nat) = (magicOf cfg.ver).length + 1 by rw [magicOf_length],
        ← List.drop_drop, List.append_assoc, List.drop_left]
      simp
    rw [e1] at e2
    obtain ⟨e3, e4⟩ := isVarint_split hd.varint (isVarint_varint _) e2
    have hl : suf.length = (1 :: w).length := by
      rw [← hd.len, e3, groups_varint, List.length_cons, Nat.add_comm]
    exact (List.append_inj e4 hl).1

/-- The header of a document denotes the user data, whatever the body is. -/
theorem header_denotes {cfg : ECfg} {cs : Codecs} {inp : Heap} {hv v : Val} {doc raw doc' : Bytes} {dcfg : DCfg}
    (hl : Lossless cs) (hver : cfg.version ≤ 3) (hver1 : cfg.version ≠ 1) (hord : ∀ n ks, (cfg.ord n ks).Perm ks)
    (hth : Tidy cfg dcfg.view (2 ^ 31 - 1) inp hv) (hnp : NoPointers cfg inp hv)
    (h : marshalWithHeader cfg cs inp (some hv) v = .ok doc)
    (hr : marshalWithHeader cfg.uncompressed cs inp (some hv) v = .ok raw)
    (hd : marshalWithHeader cfg.noDedup cs inp (some hv) v = .ok doc') (hsame : SameHeader doc doc')
    (hsz : doc.length ≤ 2 ^ 31 - 1) (hrs : raw.length ≤ 2 ^ 48) :
    ∃ dt w body z dc th j, IsDoc doc cfg.ver dt (varint (1 :: w).length) (1 :: w) z ∧
      documentDecompressor cfg.ver dt = .ok dc ∧
      (∃ lf' suf', IsDoc raw cfg.ver serealRaw lf' suf' body) ∧
      bodyInput cs doc = .ok (itemBuf cfg.ver (headBytes cfg.ver dt (varint (1 :: w).length) (1 :: w)) body) ∧
      Denotes goDialect (headBytes cfg.ver dt (varint (1 :: w).length) (1 :: w)) (5 + (varint (1 :: w).length).length + 1) th j ∧
      Supported dcfg.view th ∧ ∀ h' v', Shows dcfg.view h' v' th → Arrives cfg dcfg.view inp h' hv v' := by
  have hv' : cfg.ver ≠ 1 := by unfold ECfg.ver; split <;> omega
  obtain ⟨dt, w0, body, z, h1, h2, h3⟩ := comp_body hl hver (fun x => hv' x.1) h hr hsz hrs
  obtain ⟨w, rfl, h4⟩ := header_suf hver hver1 h h1
  -- the header bytes are those written without deduplication
  have h5 : encodeAfter cfg.noDedup inp [1] hv = .ok w := by
    obtain ⟨ver, d1, d2, lf, suf, b1, b2, e1, e2⟩ := hsame
    obtain ⟨w1, e3, e4⟩ := header_suf hver hver1 h e1
    obtain ⟨w2, e5, e6⟩ := header_suf (cfg := cfg.noDedup) hver hver1 hd e2
    rw [h4] at e4
    cases e4
    rw [e3] at e5
    cases e5
    exact e6
  have hth' : Tidy cfg.noDedup dcfg.view (2 ^ 31 - 1) inp hv := hth.alike ⟨rfl, rfl, rfl⟩
  have hnp' : NoPointers cfg.noDedup inp hv := hnp.congr (c := cfg) (c' := cfg.noDedup) rfl
  -- so they could be written anywhere
  let lf := varint (1 :: w).length
  let pre := magicOf cfg.ver ++ [UInt8.ofNat (cfg.ver + 16 * dt)] ++ lf ++ [1]
  have hpl : pre.length = 5 + lf.length + 1 := by simp [pre, magicOf_length]; omega
  have h6 : encodeAfter cfg.noDedup inp pre hv = .ok w := by
    rw [hth'.encodeAfter_pre rfl hnp' pre [1]]; exact h5
  have hdl := h1.size
  have hpw : pre ++ w = headBytes cfg.ver dt lf (1 :: w) := by simp [pre, headBytes, lf]
  have hpwl : pre.length + w.length < 2 ^ 63 := by
    have : (pre ++ w).length ≤ doc.length := by
      rw [hpw, h1.eq_head]; simp [lf]
    simp only [List.length_append] at this
    omega
  obtain ⟨th, hA, hF, hD⟩ := encodeAfter_alone (c := cfg.noDedup) hord (hth'.unshared hnp') h6 hpwl
  have hW := hA.solo
  obtain ⟨s1, s2⟩ := hth'.tree hW
  have hdh := hD pre [] rfl s2
  rw [List.append_nil, hpw, hpl] at hdh
  obtain ⟨T, g⟩ := hdh
  have hdc : ∃ dc, documentDecompressor cfg.ver dt = .ok dc := by
    unfold bodyInput at h3
    rw [checkHeader_head h1.head h1.version.2] at h3
    dsimp only at h3
    rw [show (Head.hdr cfg.ver dt (varint (1 :: w).length)).version = cfg.ver from rfl,
      show (Head.hdr cfg.ver dt (varint (1 :: w).length)).doctype = dt from rfl] at h3
    cases hdc : documentDecompressor cfg.ver dt with
    | error e => rw [hdc] at h3; cases h3
    | ok dc => exact ⟨dc, rfl⟩
  obtain ⟨dc, hdc⟩ := hdc
  exact ⟨dt, w, body, z, dc, th, _, h1, hdc, ⟨_, _, h2⟩, h3, ⟨T, g.wrt_core.core_go⟩, s1,
    fun h' v' hs => (hth'.arrives hW hs).alike ⟨rfl, rfl, rfl⟩⟩

/-- C08.  User data in the header survives: UnmarshalHeaderBody yields the header data and the body data
of MarshalWithHeader, with any compression.  In the body every pointer is met once; the header contains no
pointers other than nil pointers and pointers to Perl values.  The header must have the bytes it would have with DisableDedup (no key or class name in it is written twice):
otherwise the COPY offsets, which the encoder counts from the header and the decoder from the start of the
document, do not fit, see C08_fails.  Sizes are the limits of the decoder. -/
theorem C08_partial (cfg : ECfg) (cs : Codecs) (inp : Heap) (hv v : Val) (doc raw doc' : Bytes) (dcfg : DCfg)
    (hl : Lossless cs) (hver : cfg.version ≤ 3) (hver1 : cfg.version ≠ 1) (hord : ∀ n ks, (cfg.ord n ks).Perm ks)
    (hth : Tidy cfg dcfg.view (2 ^ 31 - 1) inp hv) (hnp : NoPointers cfg inp hv)
    (htv : Tidy cfg dcfg.view (2 ^ 31 - 1) inp v) (hu : Unshared cfg inp v)
    (h : marshalWithHeader cfg cs inp (some hv) v = .ok doc)
    (hr : marshalWithHeader cfg.uncompressed cs inp (some hv) v = .ok raw)
    (hd : marshalWithHeader cfg.noDedup cs inp (some hv) v = .ok doc') (hsame : SameHeader doc doc')
    (hsz : doc.length ≤ 2 ^ 31 - 1) (hrs : raw.length ≤ 2 ^ 48) :
    ∃ h' hv' v', unmarshalBoth dcfg cs doc = .ok (h', hv', v') ∧
      Arrives cfg dcfg.view inp h' hv hv' ∧ Arrives cfg dcfg.view inp h' v v' := by
  have hv' : cfg.ver ≠ 1 := by unfold ECfg.ver; split <;> omega
  obtain ⟨dt, w, body, z, dc, th, j, h1, hdc, ⟨lf', suf', h2⟩, h3, hdh, s1, harr⟩ :=
    header_denotes (dcfg := dcfg) hl hver hver1 hord hth hnp h hr hd hsame hsz hrs
  -- the body
  have hrd : raw.length < 2 ^ 63 := by omega
  obtain ⟨lf2, suf2, body2, pre0, pre1, m1, _, m3, m4, m5, m6⟩ :=
    raw_body (cfg := cfg.uncompressed) hver rfl hr hrd
  obtain rfl := m1.body_unique h2
  obtain ⟨pre2, _, q2, q3, q4⟩ := itemBuf_pre cfg.ver dt (varint (1 :: w).length) (1 :: w)
  have hp1 : pre0.length = pre2.length := by
    rw [q3 hv', m4]
    unfold itemBuf at m5
    rw [if_neg (show ¬ cfg.uncompressed.ver = 1 from hv')] at m5
    exact (congrArg Prod.snd m5).symm
  have hbl : pre0.length + body2.length < 2 ^ 63 := by
    simp only [List.length_append] at m6
    omega
  obtain ⟨tb, hAb, _, hDb⟩ := encodeAfter_alone (c := cfg.uncompressed) hord (hu.congr (c := cfg) (c' := cfg.uncompressed) rfl rfl) m3 hbl
  have hWb := hAb.solo
  have htv' : Tidy cfg.uncompressed dcfg.view (2 ^ 31 - 1) inp v := htv.alike ⟨rfl, rfl, rfl⟩
  obtain ⟨s3, s4⟩ := htv'.tree hWb
  have hdb := hDb pre2 [] hp1.symm s4
  rw [List.append_nil, hp1] at hdb
  obtain ⟨Tb, gb⟩ := hdb
  rw [q4 body2] at h3
  obtain ⟨h', vh, vb, r1, r2, r3⟩ := unmarshalBoth_complete (cfg := dcfg) h1 hdc hdh s1 h3
    (by simp; omega) ⟨Tb, gb.wrt_core.core_go⟩ s3
  exact ⟨h', vh, vb, r1, harr _ _ r2, (htv'.arrives hWb r3).alike ⟨rfl, rfl, rfl⟩⟩

/-- C08 for UnmarshalHeader: it yields the header data, whatever the body is (it need not be possible to decode it). -/
theorem C08_header (cfg : ECfg) (cs : Codecs) (inp : Heap) (hv v : Val) (doc raw doc' : Bytes) (dcfg : DCfg)
    (hl : Lossless cs) (hver : cfg.version ≤ 3) (hver1 : cfg.version ≠ 1) (hord : ∀ n ks, (cfg.ord n ks).Perm ks)
    (hth : Tidy cfg dcfg.view (2 ^ 31 - 1) inp hv) (hnp : NoPointers cfg inp hv)
    (h : marshalWithHeader cfg cs inp (some hv) v = .ok doc)
    (hr : marshalWithHeader cfg.uncompressed cs inp (some hv) v = .ok raw)
    (hd : marshalWithHeader cfg.noDedup cs inp (some hv) v = .ok doc') (hsame : SameHeader doc doc')
    (hsz : doc.length ≤ 2 ^ 31 - 1) (hrs : raw.length ≤ 2 ^ 48) :
    ∃ h' hv', unmarshalHeader dcfg cs doc = .ok (h', hv') ∧ Arrives cfg dcfg.view inp h' hv hv' := by
  obtain ⟨dt, w, body, z, dc, th, j, h1, hdc, _, _, hdh, s1, harr⟩ :=
    header_denotes (dcfg := dcfg) hl hver hver1 hord hth hnp h hr hd hsame hsz hrs
  obtain ⟨h', v', e, hs⟩ := unmarshalHeader_complete (cs := cs) h1 hdc hdh s1
  exact ⟨h', v', e, harr _ _ hs⟩

/-- With DisableDedup the condition on the header is void. -/
theorem C08_noDedup (cfg : ECfg) (cs : Codecs) (inp : Heap) (hv v : Val) (doc raw : Bytes) (dcfg : DCfg)
    (hdd : cfg.disableDedup = true)
    (hl : Lossless cs) (hver : cfg.version ≤ 3) (hver1 : cfg.version ≠ 1) (hord : ∀ n ks, (cfg.ord n ks).Perm ks)
    (hth : Tidy cfg dcfg.view (2 ^ 31 - 1) inp hv) (hnp : NoPointers cfg inp hv)
    (htv : Tidy cfg dcfg.view (2 ^ 31 - 1) inp v) (hu : Unshared cfg inp v)
    (h : marshalWithHeader cfg cs inp (some hv) v = .ok doc)
    (hr : marshalWithHeader cfg.uncompressed cs inp (some hv) v = .ok raw)
    (hsz : doc.length ≤ 2 ^ 31 - 1) (hrs : raw.length ≤ 2 ^ 48) :
    ∃ h' hv' v', unmarshalBoth dcfg cs doc = .ok (h', hv', v') ∧
      Arrives cfg dcfg.view inp h' hv hv' ∧ Arrives cfg dcfg.view inp h' v v' := by
  have hv' : cfg.ver ≠ 1 := by unfold ECfg.ver; split <;> omega
  obtain ⟨dt, w, body, z, h1, _⟩ := comp_body hl hver (fun x => hv' x.1) h hr hsz hrs
  have he : cfg.noDedup = cfg := by
    cases cfg; cases hdd; rfl
  exact C08_partial cfg cs inp hv v doc raw doc dcfg hl hver hver1 hord hth hnp htv hu h hr (he.symm ▸ h)
    ⟨_, _, _, _, _, _, _, h1, h1⟩ hsz hrs

/-- {"a": {"a": 1}} -/
def twiceHeap : Heap where
  mem a := if a = 1 then .mp [([97], .smap 2)] else if a = 2 then .mp [([97], .int .int 1)] else .cell .nil
  next := 3

theorem twice_tidy (c : ECfg) (w : ViewCfg) : Tidy c w (2 ^ 31 - 1) twiceHeap (.smap 1) := by
  refine .smap (by decide) (by decide) ?_ ?_
  · intro k v hv
    have := mapLookup_mem hv
    simp [twiceHeap, Heap.mapAt] at this
    rw [this.1]; decide
  · intro k v hv
    have := mapLookup_mem hv
    simp [twiceHeap, Heap.mapAt] at this
    rw [this.2]
    refine .smap (by decide) (by decide) ?_ ?_
    · intro k v hv
      have := mapLookup_mem hv
      simp [twiceHeap, Heap.mapAt] at this
      rw [this.1]; decide
    · intro k v hv
      have := mapLookup_mem hv
      simp [twiceHeap, Heap.mapAt] at this
      rw [this.2]; exact .int

theorem twice_plain : Plain (2 ^ 31 - 1) twiceHeap (.smap 1) := by
  refine .smap (by decide) (by decide) ?_ ?_
  · intro k v hv
    have := mapLookup_mem hv
    simp [twiceHeap, Heap.mapAt] at this
    rw [this.1]; decide
  · intro k v hv
    have := mapLookup_mem hv
    simp [twiceHeap, Heap.mapAt] at this
    rw [this.2]
    refine .smap (by decide) (by decide) ?_ ?_
    · intro k v hv
      have := mapLookup_mem hv
      simp [twiceHeap, Heap.mapAt] at this
      rw [this.1]; decide
    · intro k v hv
      have := mapLookup_mem hv
      simp [twiceHeap, Heap.mapAt] at this
      rw [this.2]; exact .int

/-- Is `v` a map of a map, both with the key "a"? -/
def innerA (h : Heap) : Val → Bool
  | .smap m =>
    match mapLookup [97] (h.mapAt m) with
    | some (.smap m2) => (mapLookup [97] (h.mapAt m2)).isSome
    | _ => false
  | _ => false

/-- The header of the result of UnmarshalHeaderBody. -/
def headerInnerA (r : Res (Heap × Val × Val)) : Bool :=
  match r with
  | .ok (h, v, _) => innerA h v
  | .error _ => false

/-- C08 fails when a key occurs twice in the header.  The header {"a": {"a": 1}} is written with a COPY
whose offset leads the decoder into the magic string: UnmarshalHeaderBody succeeds, and the inner key is
"\x03\x0b\x01*\x01'\x01a*\x01/\x03". -/
theorem C08_fails : ¬ ∀ (cfg : ECfg) (cs : Codecs) (inp : Heap) (hv v : Val) (doc : Bytes) (dcfg : DCfg),
    cfg.version = 3 → (∀ n ks, (cfg.ord n ks).Perm ks) → cfg.compression = none →
    Tidy cfg dcfg.view (2 ^ 31 - 1) inp hv → NoPointers cfg inp hv →
    Tidy cfg dcfg.view (2 ^ 31 - 1) inp v → Unshared cfg inp v →
    marshalWithHeader cfg cs inp (some hv) v = .ok doc →
    ∃ h' hv' v', unmarshalBoth dcfg cs doc = .ok (h', hv', v') ∧
      Arrives cfg dcfg.view inp h' hv hv' ∧ Arrives cfg dcfg.view inp h' v v' := by
  intro H
  have hm : marshalWithHeader {} noCodecs twiceHeap (some (.smap 1)) .nil = .ok
      [0x3d, 0xf3, 0x72, 0x6c, 3, 11, 1, 0x2a, 1, 0x27, 1, 97, 0x2a, 1, 0x2f, 3, 1, 0x25] := by decide +kernel
  obtain ⟨h', hv', v', h1, h2, _⟩ := H {} noCodecs twiceHeap (.smap 1) .nil _ {} rfl
    (fun _ ks => List.Perm.refl ks) rfl (twice_tidy _ _) (twice_plain.noPointers _) .nil (.plain trivial) hm
  have hf : headerInnerA (unmarshalBoth {} noCodecs
      [0x3d, 0xf3, 0x72, 0x6c, 3, 11, 1, 0x2a, 1, 0x27, 1, 97, 0x2a, 1, 0x2f, 3, 1, 0x25]) = false := by
    decide +kernel
  rw [h1] at hf
  have hf' : innerA h' hv' = false := hf
  suffices hx : innerA h' hv' = true by rw [hx] at hf'; cases hf'
  cases h2 with
  | @smap _ _ m' _ g1 _ g3 g4 =>
    rcases g1 with ⟨_, rfl⟩ | ⟨g1, _⟩
    · have e1 := g3 [97]
      have e0 : mapLookup [97] (twiceHeap.mapAt 1) = some (.smap 2) := rfl
      rw [e0] at e1
      obtain ⟨x, hx⟩ := Option.isSome_iff_exists.1 e1.symm
      have e2 := g4 [97] _ _ e0 hx
      cases e2 with
      | @smap _ _ m2 _ k1 _ k3 _ =>
        rcases k1 with ⟨_, rfl⟩ | ⟨k1, _⟩
        · unfold innerA
          dsimp only
          rw [hx]
          exact (k3 [97]).symm
        · cases k1
    · cases g1

/-! ### Examples -/

/-- The same header without deduplication arrives. -/
example : marshalWithHeader { disableDedup := true } noCodecs twiceHeap (some (.smap 1)) .nil =
      .ok [0x3d, 0xf3, 0x72, 0x6c, 3, 12, 1, 0x2a, 1, 0x27, 1, 97, 0x2a, 1, 0x27, 1, 97, 1, 0x25] ∧
    headerInnerA (unmarshalBoth {} noCodecs
      [0x3d, 0xf3, 0x72, 0x6c, 3, 12, 1, 0x2a, 1, 0x27, 1, 97, 0x2a, 1, 0x27, 1, 97, 1, 0x25]) = true := by
  decide +kernel

/-- A header without repeated keys has the same bytes with and without deduplication, whatever the body. -/
example : SameHeader [0x3d, 0xf3, 0x72, 0x6c, 3, 7, 1, 0x2a, 1, 0x27, 1, 97, 1, 0x25]
    [0x3d, 0xf3, 0x72, 0x6c, 3, 7, 1, 0x2a, 1, 0x27, 1, 97, 1, 0x26] := by
  refine ⟨3, 0, 0, [7], [1, 0x2a, 1, 0x27, 1, 97, 1], [0x25], [0x26], ?_, ?_⟩ <;>
    exact ⟨by decide, by decide, by decide, (by unfold IsVarint; decide), by decide, by decide, by decide⟩

example : marshalWithHeader {} noCodecs twiceHeap (some (.smap 2)) .nil =
      .ok [0x3d, 0xf3, 0x72, 0x6c, 3, 7, 1, 0x2a, 1, 0x27, 1, 97, 1, 0x25] ∧
    marshalWithHeader { disableDedup := true } noCodecs twiceHeap (some (.smap 2)) .nil =
      .ok [0x3d, 0xf3, 0x72, 0x6c, 3, 7, 1, 0x2a, 1, 0x27, 1, 97, 1, 0x25] := by decide +kernel

/-- UnmarshalHeader on the first of these documents, and on one whose body is cut off. -/
example : (match unmarshalHeader {} noCodecs [0x3d, 0xf3, 0x72, 0x6c, 3, 12, 1, 0x2a, 1, 0x27, 1, 97, 0x2a, 1, 0x27, 1, 97, 1, 0x25] with
      | .ok (h, v) => innerA h v | .error _ => false) = true ∧
    (match unmarshalHeader {} noCodecs [0x3d, 0xf3, 0x72, 0x6c, 3, 12, 1, 0x2a, 1, 0x27, 1, 97, 0x2a, 1, 0x27, 1, 97, 1, 0x28] with
      | .ok (h, v) => innerA h v | .error _ => false) = true := by
  decide +kernel

end Sereal

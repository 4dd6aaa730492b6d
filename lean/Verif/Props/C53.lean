import Verif.Proof.MergeOk
import Verif.Proof.EmitToks
import Verif.Proof.Comp
import Verif.Props.C35
/-
C53: the merger accepts what `Marshal` writes.
-/
namespace Sereal

/-- What `Append` finds in a document that `Marshal` wrote (version 2 or 3). -/
theorem marshal_hasBody {cfg : ECfg} {cs : Codecs} {inp : Heap} {v : Val} {doc raw : Bytes} (hl : Lossless cs)
    (hver : cfg.ver = 2 ∨ cfg.ver = 3) (h : marshal cfg cs inp v = .ok doc)
    (hr : marshal cfg.uncompressed cs inp v = .ok raw) (hsz : doc.length < 2 ^ 31) (hrs : raw.length < 2 ^ 31) :
    ∃ body, HasBody cs doc body ∧ encodeAfter cfg inp [0] v = .ok body ∧ body.length + 1 < 2 ^ 31 := by
  have hver3 : cfg.version ≤ 3 := by unfold ECfg.ver at hver; split at hver <;> omega
  have hv1 : cfg.ver ≠ 1 := by omega
  obtain ⟨suffix, body, h1, h2, h3⟩ := marshal_ok.1 h
  obtain ⟨suffix', body', h1', h2', h3'⟩ := marshal_ok.1 hr
  cases h1
  cases h1'
  rw [if_neg hv1] at h2
  have h2'' : encodeAfter cfg inp [0] v = .ok body' := by
    rw [← encodeAfter_uncompressed]
    rw [if_neg (by exact hv1)] at h2'
    exact h2'
  rw [h2] at h2''
  cases h2''
  have hbl : body.length + 5 ≤ raw.length := by
    have hd : raw = encHeader cfg.uncompressed [0] serealRaw ++ body := by
      rcases h3' with ⟨_, hd⟩ | ⟨c, h4, _⟩ | ⟨c, _, _, h4, _⟩
      · exact hd
      · cases h4
      · cases h4
    rw [hd, encHeader_eq (by exact hver3) (by decide)]
    have := magicOf_length cfg.uncompressed.ver
    simp
    omega
  have hmk : ∀ (dt : Nat) (x : Bytes), dt < 16 → doc = encHeader cfg [0] dt ++ x →
      IsDoc doc cfg.ver dt [0] [] x := by
    intro dt x hdt hd
    rw [encHeader_eq hver3 hdt] at hd
    exact ⟨by rw [hd]; simp, ⟨by omega, by omega⟩, by omega, (by show (0 : UInt8).toNat < 128; decide), by decide, rfl,
      by omega⟩
  refine ⟨body, ?_, h2, by omega⟩
  have plain : doc = encHeader cfg [0] serealRaw ++ body → HasBody cs doc body := fun hd =>
    ⟨cfg.ver, 0, [0], [], body, none, hmk 0 body (by omega) hd, hv1, rfl, rfl⟩
  rcases h3 with ⟨_, hd⟩ | ⟨c, h4, _, hd⟩ | ⟨c, z, dt, h4, _, hz, hdt, hd⟩
  · exact plain hd
  · exact plain hd
  · have hz' : z.length ≤ 2 ^ 31 - 1 := by rw [hd] at hsz; simp at hsz; omega
    rcases compressionDoctype_lt hdt with ⟨rfl, hv, i, rfl⟩ | ⟨rfl, hv, i, rfl⟩ | ⟨rfl, hv, l, rfl⟩
    · omega
    · have hi : i = true := by
        cases i with
        | true => rfl
        | false =>
          unfold compressionDoctype at hdt
          dsimp only at hdt
          rw [if_pos ⟨by omega, by simp⟩] at hdt
          cases hdt
      subst hi
      exact ⟨cfg.ver, 2, [0], [], z, some (.snappy true), hmk 2 z (by omega) hd, hv1, rfl, compress_snappy hl hz hz'⟩
    · refine ⟨cfg.ver, 3, [0], [], z, some (.zlib 0), hmk 3 z (by omega) hd, hv1, ?_, compress_zlib hl hz hz' (by omega)⟩
      unfold documentDecompressor
      simp only [serealRaw, serealSnappy, serealSnappyIncremental, serealZlib]
      rw [if_neg (by decide), if_neg (by decide), if_neg (by decide), if_pos trivial, if_neg (by omega)]

/-- The document `b` (of version 2 or later, below 2 GB) is a row of tokens. -/
def TokDoc (cs : Codecs) (b : Bytes) : Prop :=
  ∃ body y vs, HasBody cs b body ∧ body.length < 2 ^ 31 ∧ Toks (y :: body) [] 1 vs (body.length + 1)

theorem TokDoc.merges {c : MCfg} (hkf : c.keepFlat = false) {cs : Codecs} {b : Bytes} (h : TokDoc cs b) :
    ∃ body off, mergeBody cs b = .ok body ∧ Merges c body 1 off := by
  obtain ⟨body, y, vs, h1, h2, h3⟩ := h
  exact ⟨body, 0, h1.mergeBody, expected_one hkf body, by decide, by omega, by omega, .refl _ _ _, y, vs, h3⟩

/-- What `Marshal` writes for smooth values is a row of tokens. -/
theorem Smooth.tokDoc {cfg : ECfg} {cs : Codecs} {inp : Heap} {v : Val} {doc raw : Bytes} (hl : Lossless cs)
    (hord : ∀ n ks, (cfg.ord n ks).Perm ks) (hver : cfg.ver = 2 ∨ cfg.ver = 3) (hs : Smooth cfg inp v)
    (h : marshal cfg cs inp v = .ok doc) (hr : marshal cfg.uncompressed cs inp v = .ok raw)
    (hsz : doc.length < 2 ^ 31) (hrs : raw.length < 2 ^ 31) : TokDoc cs doc := by
  obtain ⟨body, h1, h2, h3⟩ := marshal_hasBody hl hver h hr hsz hrs
  obtain ⟨y, vs, h4⟩ := encodeAfter_toks hord hs h2 h3
  exact ⟨body, y, vs, h1, by omega, h4⟩

/-- C53 for documents given as rows of tokens: every `Append` succeeds and returns 1, and so does `Finish`. -/
theorem C53_tokens (c : MCfg) (cs : Codecs) (calls : List MCall) (hv : c.ver ≤ 3) (htop : c.topLevel ≠ .invalid)
    (hc : c.compression = none) (hkf : c.keepFlat = false) (hdocs : ∀ k ∈ calls, TokDoc cs k.doc)
    (hn : calls.length < 2 ^ 35) :
    ∃ s, appendAll c cs calls {} = some (calls.map (fun _ => 1), s) ∧
      ∀ slack, ∃ doc s', mergeFinish c cs slack s = (.ok doc, s') := by
  have hh : Each (fun k n => ∃ body off, mergeBody cs k.doc = .ok body ∧ Merges c body n off) calls
      (calls.map fun _ => 1) := by
    clear hn
    induction calls with
    | nil => exact .nil
    | cons k ks ih =>
      exact .cons ((hdocs k (by simp)).merges hkf) (ih fun k hk => hdocs k (by simp [hk]))
  have hsum : (calls.map fun _ => 1).sum = calls.length := by
    clear hn hh hdocs
    induction calls with
    | nil => rfl
    | cons k ks ih => simp [ih]; omega
  obtain ⟨s0, s', h1, h2, h3, h4, h5⟩ := accepted_all hv htop hh
  cases calls with
  | nil =>
    refine ⟨{}, rfl, fun slack => ?_⟩
    rw [mergeFinish_init h1]
    cases h2
    exact h4.finish hc (by rw [h5]; decide) cs slack
  | cons k ks =>
    refine ⟨s', h3.resolve_right (by simp), fun slack => h4.finish hc (by omega) cs slack⟩

/-- C53 for values without class names (or with deduplication off), regexps with empty parts, and some
pointers (see `Smooth`), written with or without compression in version 2 or 3, and a merger without
compression and KeepFlat.  What is missing is false: see `C53_fails`. -/
theorem C53_partial (c : MCfg) (cs : Codecs) (hl : Lossless cs) (inp : Heap) (calls : List MCall) (vs : List Val)
    (hv : c.ver ≤ 3) (htop : c.topLevel ≠ .invalid) (hc : c.compression = none) (hkf : c.keepFlat = false)
    (hdocs : Each (fun k v => ∃ (cfg : ECfg) (raw : Bytes), (∀ n ks, (cfg.ord n ks).Perm ks) ∧
      (cfg.ver = 2 ∨ cfg.ver = 3) ∧ Smooth cfg inp v ∧ marshal cfg cs inp v = .ok k.doc ∧
      marshal cfg.uncompressed cs inp v = .ok raw ∧ k.doc.length < 2 ^ 31 ∧ raw.length < 2 ^ 31) calls vs)
    (hn : vs.length < 2 ^ 35) :
    ∃ s, appendAll c cs calls {} = some (vs.map (fun _ => 1), s) ∧
      ∀ slack, ∃ doc s', mergeFinish c cs slack s = (.ok doc, s') := by
  have hlen := hdocs.length
  have ht : ∀ k ∈ calls, TokDoc cs k.doc := by
    clear hn hlen
    induction hdocs with
    | nil => intro k hk; cases hk
    | cons h _ ih =>
      obtain ⟨cfg, raw, ho, hve, hs, hm, hr, h1, h2⟩ := h
      intro k hk
      rcases List.mem_cons.1 hk with rfl | hk
      · exact hs.tokDoc hl ho hve hm hr h1 h2
      · exact ih k hk
  obtain ⟨s, h1, h2⟩ := C53_tokens c cs calls hv htop hc hkf ht (by omega)
  refine ⟨s, ?_, h2⟩
  rw [h1, List.map_const', List.map_const', hlen]

/-- Plain data are smooth. -/
theorem Plain.smooth {n : Nat} {inp : Heap} {v : Val} (h : Plain n inp v) (cfg : ECfg) : Smooth cfg inp v := by
  refine ⟨Plain n inp, h, fun w hw => ?_⟩
  cases hw with
  | slice _ h => exact h
  | smap _ _ _ h => exact h
  | _ => trivial

/-- Merging what `Marshal` wrote for plain data succeeds, and decoding the result gives the slice of these data:
C35 without the hypotheses that `Append` and `Finish` succeed. -/
theorem C53_values (c : MCfg) (cs : Codecs) (inp : Heap) (calls : List MCall) (vs : List Val)
    (hv : c.ver ≤ 3) (hv1 : c.version ≠ 1) (htop : c.topLevel ≠ .invalid) (hc : c.compression = none)
    (hdd : c.dedupeStrings = false) (hkf : c.keepFlat = false)
    (hdocs : Each (fun k v => Plain maxSize inp v ∧ k.doc.length < 2 ^ 31 ∧ ∃ cfg : ECfg,
      (∀ n ks, (cfg.ord n ks).Perm ks) ∧ (cfg.ver = 2 ∨ cfg.ver = 3) ∧ cfg.compression = none ∧
      marshal cfg cs inp v = .ok k.doc) calls vs)
    (hn : vs.length ≤ maxSize) (slack : Bytes) :
    ∃ s doc s', appendAll c cs calls {} = some (vs.map (fun _ => 1), s) ∧
      mergeFinish c cs slack s = (.ok doc, s') ∧
      (doc.length < 2 ^ 63 → ∀ dcfg : DCfg, dcfg.perlCompat = false →
        ∃ h p, unmarshal dcfg cs doc = .ok (h, .slice p vs.length) ∧
          ∀ i v, vs[i]? = some v → Same inp h v (h.cellAt (p + i))) := by
  have hlen := hdocs.length
  have ht : ∀ k ∈ calls, TokDoc cs k.doc := by
    clear hn hlen
    induction hdocs with
    | nil => intro k hk; cases hk
    | @cons k0 v0 _ _ h _ ih =>
      obtain ⟨hp, h1, cfg, ho, hve, hco, hm⟩ := h
      intro k hk
      rcases List.mem_cons.1 hk with rfl | hk
      · have hver3 : cfg.version ≤ 3 := by unfold ECfg.ver at hve; split at hve <;> omega
        have hv1' : cfg.ver ≠ 1 := by omega
        obtain ⟨lf, suf, body, pre0, pre, b1, b2, b3, b4, b5, b6⟩ := raw_body hver3 hco hm (by omega)
        obtain ⟨suffix, body', c1, c2, c3⟩ := marshal_ok.1 hm
        rw [if_neg hv1'] at c2
        have hd : k.doc = encHeader cfg suffix serealRaw ++ body' := by
          rcases c3 with ⟨_, hd⟩ | ⟨c, h4, _⟩ | ⟨c, _, _, h4, _⟩
          · exact hd
          · rw [hco] at h4; cases h4
          · rw [hco] at h4; cases h4
        cases c1
        rw [encHeader_eq hver3 (by decide)] at hd
        have hisd : IsDoc k.doc cfg.ver 0 [0] [] body' :=
          ⟨by rw [hd]; simp [serealRaw], ⟨by omega, by omega⟩, by omega,
            (by show (0 : UInt8).toNat < 128; decide), by decide, rfl, by omega⟩
        have hbl : body'.length + 5 ≤ k.doc.length := by
          rw [hd]; have := magicOf_length cfg.ver; simp; omega
        obtain ⟨y, vs', hT⟩ := encodeAfter_toks ho (hp.smooth cfg) c2 (by omega)
        exact ⟨body', y, vs', ⟨cfg.ver, 0, [0], [], body', none, hisd, hv1', rfl, rfl⟩, by omega, hT⟩
      · exact ih k hk
  obtain ⟨s, h1, h2⟩ := C53_tokens c cs calls hv htop hc hkf ht (by unfold maxSize at hn; omega)
  obtain ⟨doc, s', h3⟩ := h2 slack
  rw [show calls.map (fun _ => 1) = vs.map (fun _ => 1) by rw [List.map_const', List.map_const', hlen]] at h1
  exact ⟨s, doc, s', h1, h3, fun hsz dcfg hd => C35_values c cs inp calls vs _ s s' slack doc hv1 hc hdd hkf hdocs h1 h3 hn
    hsz dcfg hd⟩

/-! ### What the merger refuses -/

/-- What one would expect: a fresh merger accepts any document `Marshal` writes in version 2 or 3. -/
def MergerAccepts : Prop :=
  ∀ (c : MCfg) (cs : Codecs) (cfg : ECfg) (inp : Heap) (v : Val) (doc : Bytes), c.ver ≤ 3 → c.topLevel ≠ .invalid →
    (cfg.ver = 2 ∨ cfg.ver = 3) → marshal cfg cs inp v = .ok doc →
    ∃ ns s, appendAll c cs [⟨doc, [], 0⟩] {} = some (ns, s)

/-- Two structs of one type `A` with one field `F`; a map containing itself through a pointer. -/
def mergeHeap : Heap where
  mem a := match a with
    | 1 | 2 => .cell (.strct [65] 3)
    | 3 => .flds [⟨[70], [], true, .int .int 1⟩]
    | 4 => .mp [([107], .ptr true 5)]
    | 5 => .cell (.smap 4)
    | 6 => .cell (.ptr true 6)
    | _ => .cell .nil
  next := 7

/-- `Marshal` writes the document, `Append` refuses it. -/
def refused (cfg : ECfg) (v : Val) : Bool :=
  match marshal cfg noCodecs mergeHeap v with
  | .ok doc => (appendAll {} noCodecs [⟨doc, [], 0⟩] {}).isNone
  | .error _ => false

theorem refused_fails {cfg : ECfg} {v : Val} (hv : cfg.ver = 2 ∨ cfg.ver = 3) (h : refused cfg v = true) :
    ¬ MergerAccepts := by
  intro hp
  unfold refused at h
  split at h
  · next doc hm =>
    obtain ⟨ns, s, h1⟩ := hp {} noCodecs cfg mergeHeap v doc (by decide) (by decide) hv hm
    rw [h1] at h
    cases h
  · cases h

/-- The full statement is false: the class name of the second struct is written as a COPY, which `readString`
(merge.go:500-533) does not know. -/
theorem C53_fails : ¬ MergerAccepts := refused_fails (cfg := {}) (v := .slice 1 2) (.inr rfl) (by decide +kernel)

/-- Nor does it hold without deduplication: regexps without modifiers are refused. -/
theorem C53_fails_regexp : refused { disableDedup := true } (.regexp [97] []) = true := by decide +kernel

/-- And a pointer to itself is refused. -/
theorem C53_fails_self : refused { disableDedup := true } (.ptr true 6) = true := by decide +kernel

/-- An OBJECTV that names the class of an OBJECT before it is refused, too; the decoder reads the document. -/
theorem C53_fails_objectv :
    (appendAll {} noCodecs [⟨rawDoc [0x42, 0x2c, 0x61, 0x41, 0x01, 0x2d, 0x03, 0x02], [], 0⟩] {}).isNone = true ∧
      unmarshals noCodecs (rawDoc [0x42, 0x2c, 0x61, 0x41, 0x01, 0x2d, 0x03, 0x02]) = true := by decide +kernel

/-! ### Examples: the two structs without deduplication, and a map containing itself -/

theorem structs_smooth : Smooth { disableDedup := true } mergeHeap (.slice 1 2) := by
  refine ⟨fun w => w = .slice 1 2 ∨ w = .strct [65] 3 ∨ w = .int .int 1, .inl rfl, ?_⟩
  rintro w (rfl | rfl | rfl)
  · intro i hi
    have : i = 0 ∨ i = 1 := by omega
    rcases this with rfl | rfl <;> exact .inr (.inl rfl)
  · refine ⟨rfl, by decide, fun f hf => ?_⟩
    simp [Heap.fieldsAt, mergeHeap] at hf
    subst hf
    exact .inr (.inr rfl)
  · trivial

theorem cycle_smooth (cfg : ECfg) : Smooth cfg mergeHeap (.smap 4) := by
  refine ⟨fun w => w = .smap 4 ∨ w = .ptr true 5, .inl rfl, ?_⟩
  rintro w (rfl | rfl)
  · intro k v hv
    have := mapLookup_mem hv
    simp [Heap.mapAt, mergeHeap] at this
    exact .inr this.2
  · exact ⟨trivial, .inl rfl⟩

def structsDoc : Bytes :=
  [0x3d, 0xf3, 0x72, 0x6c, 3, 0, 0x2b, 2, 0x2c, 0x61, 65, 0x2a, 1, 0x27, 1, 70, 1, 0x2c, 0x61, 65, 0x2a, 1, 0x27, 1, 70, 1]
def cycleDoc : Bytes := [0x3d, 0xf3, 0x72, 0x6c, 3, 0, 0x2a, 1, 0x27, 1, 107, 0xa8, 0x2a, 1, 0x2f, 3, 0x29, 6]

/-- The hypotheses of `C53_partial` hold for these two documents. -/
example : ∃ s, appendAll {} idCodecs [⟨structsDoc, [], 0⟩, ⟨cycleDoc, [], 0⟩] {} = some ([1, 1], s) ∧
    ∀ slack, ∃ doc s', mergeFinish {} idCodecs slack s = (.ok doc, s') := by
  have e1 : marshal { disableDedup := true } idCodecs mergeHeap (.slice 1 2) = .ok structsDoc := by decide +kernel
  have e2 : marshal {} idCodecs mergeHeap (.smap 4) = .ok cycleDoc := by decide +kernel
  refine C53_partial {} idCodecs idCodecs_lossless mergeHeap _ [.slice 1 2, .smap 4] (by decide) (by decide) rfl rfl
    (.cons ⟨{ disableDedup := true }, structsDoc, fun _ _ => .refl _, .inr rfl, structs_smooth, e1, e1, by decide, by decide⟩
      (.cons ⟨{}, cycleDoc, fun _ _ => .refl _, .inr rfl, cycle_smooth _, e2, e2, by decide, by decide⟩ .nil)) (by decide)

end Sereal

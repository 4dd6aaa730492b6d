import Verif.Props.C35
/-
C37, C38, C39: failed calls of `Append`, calls after `Finish`, and compression of the merged document.
-/
namespace Sereal

/-! ### C37 -/

/-- `appendEach` in two parts. -/
theorem appendEach_append (c : MCfg) (cs : Codecs) (ks ks' : List MCall) (s : MState) :
    appendEach c cs (ks ++ ks') s = ((appendEach c cs ks s).1 ++ (appendEach c cs ks' (appendEach c cs ks s).2).1,
      (appendEach c cs ks' (appendEach c cs ks s).2).2) := by
  induction ks generalizing s with
  | nil => rfl
  | cons k ks ih =>
    rw [List.cons_append, appendEach, ih, appendEach]
    rfl

theorem finish_congr {c : MCfg} {cs : Codecs} {slack : Bytes} {s s' : MState} (hi : s.inited = true)
    (hi' : s'.inited = true) (hf : s'.finished = s.finished) (hb : s'.buf = s.buf) (ho : s'.lenOffset = s.lenOffset)
    (hl : s'.length = s.length) : (mergeFinish c cs slack s').1 = (mergeFinish c cs slack s).1 := by
  unfold mergeFinish
  rw [initMerger_inited hi, initMerger_inited hi']
  dsimp only
  rw [hf, hb, ho, hl]
  split
  · rfl
  · split
    · rfl
    · split
      · rfl
      · split
        · rfl
        · split
          · rfl
          · split <;> rfl

/-- The state after any row of `Append`s is sane, or the merger cannot be used at all. -/
theorem each_state {c : MCfg} {cs : Codecs} {ks : List MCall} {s : MState} {rs : List (Res Nat)}
    (h : appendEach c cs ks {} = (rs, s)) :
    (∃ e, initMerger c s = .error e) ∨ ∃ s0, initMerger c s = .ok s0 ∧ MSane c s0 ∧ s0.finished = false := by
  cases h0 : initMerger c {} with
  | error e =>
    left
    have := (appendEach_fail h0 cs ks).1
    rw [h] at this
    exact ⟨e, by rw [show s = {} from this]; exact h0⟩
  | ok s0 =>
    right
    have hs := initMerger_sane h0
    have hg := initMerger_new h0
    cases ks with
    | nil => cases h; exact ⟨s0, h0, hs, hg.open_⟩
    | cons k ks =>
      rw [appendEach_init h0] at h
      obtain ⟨h1, h2, -⟩ := hs.each h
      exact ⟨s, initMerger_inited h1.inited, h1, h2.trans hg.open_⟩

theorem low_take {x y : Bytes} (h : y.map (fun b => b.toNat % 128) = x.map (fun b => b.toNat % 128)) (n : Nat) :
    (y.take n).map (fun b => b.toNat % 128) = (x.take n).map (fun b => b.toNat % 128) := by
  rw [List.map_take, List.map_take, h]

theorem low_drop {x y : Bytes} (h : y.map (fun b => b.toNat % 128) = x.map (fun b => b.toNat % 128)) (n : Nat) :
    (y.drop n).map (fun b => b.toNat % 128) = (x.drop n).map (fun b => b.toNat % 128) := by
  rw [List.map_drop, List.map_drop, h]

/-- C37, after any row of `Append`s, if `Finish` follows directly on the failed `Append`, which must be of a
document without a byte that looks like a REFP or ALIAS tag: `Finish` returns the same as without that
`Append`.  Without compression, and whatever the document: the same up to track bits.  If the `Append` fails
because of the header, the compression or the first pass over the body, any further calls may lie between. -/
theorem C37_partial (c : MCfg) (cs : Codecs) (calls : List MCall) (rs : List (Res Nat)) (s s1 : MState) (k : MCall)
    (e : Exn) (slack : Bytes) (happ : appendEach c cs calls {} = (rs, s))
    (hfail : mergeAppend c cs k.extra k.cap k.doc s = (.error e, s1)) :
    ((∀ body, mergeBody cs k.doc = .ok body → ∀ b ∈ body, b.toNat % 128 ≠ 0x29 ∧ b.toNat % 128 ≠ 0x2e) →
      (mergeFinish c cs slack s1).1 = (mergeFinish c cs slack s).1) ∧
    (c.compression = none → ∀ doc s', mergeFinish c cs slack s = (.ok doc, s') →
      ∃ doc1 s1', mergeFinish c cs slack s1 = (.ok doc1, s1') ∧
        doc1.map (fun b => b.toNat % 128) = doc.map (fun b => b.toNat % 128)) ∧
    ((∀ body, mergeBody cs k.doc = .ok body → ∃ e, buildTrack body (body.length + 1) 0 [] = .error e) →
      ∀ more, (mergeFinish c cs slack (appendEach c cs more s1).2).1 =
        (mergeFinish c cs slack (appendEach c cs more s).2).1) := by
  rcases each_state happ with ⟨e0, h0⟩ | ⟨s0, h0, hs, hopen⟩
  · have : s1 = s := by
      unfold mergeAppend at hfail
      rw [h0] at hfail
      cases hfail; rfl
    subst this
    refine ⟨fun _ => rfl, fun _ doc s' h => ⟨doc, s', h, rfl⟩, fun _ _ => rfl⟩
  · have hfail' := hfail
    rw [mergeAppend_init h0] at hfail
    obtain ⟨i1, i2, i3, -, i5⟩ := hs.append hfail
    obtain ⟨j1, j2, j3⟩ := i5 e rfl
    refine ⟨fun hno => ?_, fun hc doc s' hf => ?_, fun hbad more => ?_⟩
    · rw [mergeFinish_init h0]
      exact finish_congr hs.inited i1.inited i2 (j3 hno) i3 j1
    · rw [mergeFinish_init h0] at hf
      have hp := mergeFinish_raw hs.inited hopen hf (fun b _ => by unfold mergeCompresses; rw [hc]; split <;> rfl)
      unfold putLength at hp
      split at hp
      · next hle =>
        cases hp
        let d1 := s1.buf.take s0.lenOffset ++ varint s0.length ++ s1.buf.drop (s0.lenOffset + (varint s0.length).length)
        have hp1 : putLength s1.buf s1.lenOffset s1.length = .ok d1 := by
          unfold putLength
          rw [i3, j1, if_pos (by rw [j2.length]; exact hle)]
        refine ⟨d1, { s1 with buf := d1, finished := true }, ?_, ?_⟩
        · unfold mergeFinish
          rw [initMerger_inited i1.inited]
          dsimp only
          rw [i2, hopen, if_neg (by decide), hp1]
          dsimp only
          rw [show mergeCompresses c _ = none by unfold mergeCompresses; rw [hc]; split <;> rfl]
        · simp only [d1, List.map_append]
          rw [low_take j2.low, low_drop j2.low]
      · cases hp
    · have e1 : s1 = s0 := by
        unfold mergeAppend at hfail
        rw [initMerger_inited hs.inited] at hfail
        dsimp only at hfail
        rw [hopen, if_neg (by decide)] at hfail
        split at hfail
        · cases hfail; rfl
        · next body hb =>
          obtain ⟨e', he'⟩ := hbad body hb
          rw [he'] at hfail
          cases hfail; rfl
      rw [e1]
      cases more with
      | nil => exact congrArg Prod.fst (mergeFinish_init h0 cs slack).symm
      | cons k' more => rw [appendEach_init h0]

/-- C37 as it stands. -/
def FailedAppendHarmless : Prop := ∀ (c : MCfg) (cs : Codecs) (before after : List MCall) (k : MCall) (slack : Bytes)
  (e : Err), (mergeAppend c cs k.extra k.cap k.doc (appendEach c cs before {}).2).1 = .error (.err e) →
  (mergeFinish c cs slack (appendEach c cs (before ++ k :: after) {}).2).1 =
    (mergeFinish c cs slack (appendEach c cs (before ++ after) {}).2).1

def resultBytes : Res Bytes → Option Bytes
  | .ok b => some b
  | .error _ => none

/-- [{"aa": 1}, [object of class "A" on ..., OBJECTV naming no item]]: fails in the second pass only. -/
def lateErrorDoc : Bytes :=
  rawDoc [0x42, 0x51, 0x62, 0x61, 0x61, 1, 0x42, 0x2c, 0x61, 0x41, 1, 0x2d, 9, 2]

/-- {"aa": 1}. -/
def aaDoc : Bytes := rawDoc [0x51, 0x62, 0x61, 0x61, 1]

/-- C37 fails: the failed `Append` leaves the key "aa" in the merger's table, with an offset in the part of the
buffer that was given up; the next document with that key gets a COPY tag naming whatever stands
there now (here: the COPY tag itself). -/
theorem C37_fails : ¬ FailedAppendHarmless := by
  intro hp
  have e0 : (match (mergeAppend {} noCodecs [] 0 lateErrorDoc (appendEach {} noCodecs [] {}).2).1 with
    | .error (.err _) => true | _ => false) = true := by decide +kernel
  split at e0
  · next e he =>
    have := congrArg resultBytes (hp {} noCodecs [] [⟨aaDoc, [], 0⟩] ⟨lateErrorDoc, [], 0⟩ [] e he)
    exact absurd this (by decide +kernel)
  · cases e0

/-- An example for C37_partial: something that is no document between two documents. -/
example : (mergeAppend {} noCodecs [] 0 [7] (appendEach {} noCodecs [⟨aaDoc, [], 0⟩] {}).2).1.isOk = false ∧
    (∀ body, mergeBody noCodecs [7] = .ok body → ∃ e, buildTrack body (body.length + 1) 0 [] = .error e) := by
  refine ⟨by decide +kernel, fun body h => ?_⟩
  have : (mergeBody noCodecs [7]).isOk = false := by decide +kernel
  rw [h] at this
  cases this

/-! ### C38 -/

theorem mergeFinish_state {c : MCfg} {cs : Codecs} {slack : Bytes} {s s' : MState} {r : Res Bytes}
    (h : mergeFinish c cs slack s = (r, s')) :
    (∃ e, initMerger c s = .error e ∧ r = .error e ∧ s' = s) ∨
    (s'.inited = true ∧ s'.finished = true ∧ ∀ doc, r = .ok doc → s'.buf = doc) := by
  unfold mergeFinish at h
  cases h0 : initMerger c s with
  | error e => rw [h0] at h; cases h; exact .inl ⟨e, rfl, rfl, rfl⟩
  | ok s0 =>
    have hi := initMerger_idem h0
    rw [h0] at h
    dsimp only at h
    right
    split at h
    · next hf => cases h; exact ⟨hi, hf, fun doc h => by cases h; rfl⟩
    · split at h
      · cases h; exact ⟨hi, rfl, fun doc h => by cases h⟩
      · split at h
        · cases h; exact ⟨hi, rfl, fun doc h => by cases h; rfl⟩
        · split at h
          · cases h; exact ⟨hi, rfl, fun doc h => by cases h⟩
          · split at h
            · cases h; exact ⟨hi, rfl, fun doc h => by cases h⟩
            · split at h
              · cases h; exact ⟨hi, rfl, fun doc h => by cases h⟩
              · cases h; exact ⟨hi, rfl, fun doc h => by cases h; rfl⟩

/-- C38.  After `Finish`, whatever it returned and whatever state the merger was in, `Append` returns an error
and changes nothing.  If `Finish` returned a document, it returns the same document again, any number of
times, also after further `Append`s, and changes nothing. -/
theorem C38 (c : MCfg) (cs : Codecs) (slack : Bytes) (s s' : MState) (r : Res Bytes)
    (h : mergeFinish c cs slack s = (r, s')) :
    (∀ cs' (k : MCall), ∃ e, mergeAppend c cs' k.extra k.cap k.doc s' = (.error e, s')) ∧
    (∀ doc, r = .ok doc → ∀ cs' slack' calls, mergeFinish c cs' slack' (appendEach c cs' calls s').2 = (.ok doc, s')) := by
  rcases mergeFinish_state h with ⟨e, h1, rfl, rfl⟩ | ⟨h1, h2, h3⟩
  · refine ⟨fun cs' k => ⟨e, ?_⟩, fun doc h => by cases h⟩
    unfold mergeAppend
    rw [h1]
  · have ha : ∀ cs' (k : MCall), ∃ e, mergeAppend c cs' k.extra k.cap k.doc s' = (.error e, s') := by
      intro cs' k
      refine ⟨.err (.msg "finished document"), ?_⟩
      unfold mergeAppend
      rw [initMerger_inited h1]
      dsimp only
      rw [if_pos h2]
    refine ⟨ha, fun doc hd cs' slack' calls => ?_⟩
    have he : (appendEach c cs' calls s').2 = s' := by
      induction calls with
      | nil => rfl
      | cons k ks ih =>
        obtain ⟨e, he⟩ := ha cs' k
        rw [appendEach, he]
        exact ih
    rw [he]
    unfold mergeFinish
    rw [initMerger_inited h1]
    dsimp only
    rw [if_pos h2, h3 doc hd]

/-- What `Finish` returned before is no document if it returned an error; called again it returns the half
finished buffer without an error.  Here: Snappy without the incremental format, which `Finish` refuses after
having compressed. -/
theorem C38_after_error : ∃ (c : MCfg) (s s1 s2 : MState) (e : Err) (doc : Bytes),
    mergeFinish c idCodecs [] s = (.error (.err e), s1) ∧ mergeFinish c idCodecs [] s1 = (.ok doc, s2) ∧
    doc = rawDoc [0x28, 0x2b, 0, 0x3f, 0x3f, 0x3f, 0x3f] := by
  let c : MCfg := { compression := some (.snappy false), threshold := 0 }
  have e0 : (match mergeFinish c idCodecs [] {} with
    | (.error (.err _), s1) => resultBytes (mergeFinish c idCodecs [] s1).1 | _ => none) =
      some (rawDoc [0x28, 0x2b, 0, 0x3f, 0x3f, 0x3f, 0x3f]) := by decide +kernel
  split at e0
  · next e s1 h1 =>
    cases h2 : mergeFinish c idCodecs [] s1 with
    | mk r s2 =>
    rw [h2] at e0
    cases r with
    | error _ => cases e0
    | ok doc => exact ⟨c, {}, s1, s2, e, doc, h1, h2, Option.some.inj e0⟩
  · cases e0

/-- An example for C38. -/
example : (mergeRun {} noCodecs sampleCalls []).map (fun r => r.after.finished) = some true := by decide +kernel

/-! ### C39 -/

/-- The same merger without compression. -/
def MCfg.uncompressed (c : MCfg) : MCfg := { c with compression := none }

theorem mergeLoop_uncompressed (c : MCfg) (dbuf slack : Bytes) (cap fuel : Nat) (s : LState) :
    mergeLoop c.uncompressed dbuf slack cap fuel s = mergeLoop c dbuf slack cap fuel s := by
  induction fuel generalizing s with
  | zero => rfl
  | succ fuel ih =>
    rw [mergeLoop, mergeLoop]
    split
    · rfl
    · split
      · rfl
      · rename_i top rest _
        rw [show dedupHere c.uncompressed top = dedupHere c top from rfl]
        split
        · rfl
        · exact ih _

theorem mergeAppend_uncompressed (c : MCfg) (cs : Codecs) (extra : Bytes) (cap : Nat) (b : Bytes) (s : MState) :
    mergeAppend c.uncompressed cs extra cap b s = mergeAppend c cs extra cap b s := by
  unfold mergeAppend
  rw [show initMerger c.uncompressed s = initMerger c s from rfl]
  split
  · rfl
  · split
    · rfl
    · split
      · rfl
      · split
        · rfl
        · unfold mergeItems
          rename_i s0 _ _ _ body _ _ keys _
          rw [show expectedElements c.uncompressed body = expectedElements c body from rfl]
          cases expectedElements c body with
          | error e => rfl
          | ok p =>
            obtain ⟨n, off⟩ := p
            dsimp only
            rw [mergeLoop_uncompressed]

theorem appendEach_uncompressed (c : MCfg) (cs : Codecs) (ks : List MCall) (s : MState) :
    appendEach c.uncompressed cs ks s = appendEach c cs ks s := by
  induction ks generalizing s with
  | nil => rfl
  | cons k ks ih => rw [appendEach, appendEach, mergeAppend_uncompressed, ih]

/-- Version byte with document type. -/
theorem verbyte (v dt : Nat) (hv : v < 16) (hdt : dt < 16) :
    UInt8.ofNat (v + 16 * 0) ||| (UInt8.ofNat dt <<< 4) = UInt8.ofNat (v + 16 * dt) := by
  have : ∀ v < 16, ∀ dt < 16, UInt8.ofNat (v + 16 * 0) ||| (UInt8.ofNat dt <<< 4) = UInt8.ofNat (v + 16 * dt) := by
    decide
  exact this v hv dt hdt

theorem itemBuf_plainHead {ver dt : Nat} (hv : ver ≠ 1) (body : Bytes) :
    itemBuf ver (headBytes ver dt [0] []) body = (0 :: body, 1) := by
  unfold itemBuf headBytes
  rw [if_neg hv]
  have := magicOf_length ver
  simp [this, List.drop_append]

/-- C39.  A merger with compression and one without get the same calls of `Append` (of any kind), and `Finish`
succeeds on both.  If the codecs are lossless, sizes stay below 2 GB, and compression by zlib has not made
the document longer, then both documents decode to the same. -/
theorem C39_partial (c : MCfg) (cs : Codecs) (hl : Lossless cs) (calls : List MCall) (hv : c.version ≠ 1)
    (slack slack' doc raw : Bytes) (s s' : MState)
    (hdoc : mergeFinish c cs slack (appendEach c cs calls {}).2 = (.ok doc, s))
    (hraw : mergeFinish c.uncompressed cs slack' (appendEach c.uncompressed cs calls {}).2 = (.ok raw, s'))
    (hds : doc.length ≤ 2 ^ 31 - 1) (hrs : raw.length ≤ 2 ^ 48)
    (hshort : (∃ l, c.compression = some (.zlib l)) → doc.length ≤ raw.length) (dcfg : DCfg) :
    unmarshal dcfg cs doc = unmarshal dcfg cs raw := by
  rw [appendEach_uncompressed] at hraw
  cases happ : appendEach c cs calls {} with
  | mk rs st =>
  rw [happ] at hdoc hraw
  rcases each_state happ with ⟨e, h0⟩ | ⟨s0, h0, hs, hopen⟩
  · unfold mergeFinish at hdoc
    rw [h0] at hdoc
    cases hdoc
  rw [mergeFinish_init h0] at hdoc
  rw [mergeFinish_init (show initMerger c.uncompressed st = .ok s0 from h0)] at hraw
  have hp := mergeFinish_raw hs.inited hopen hraw (fun b _ => by unfold mergeCompresses; split <;> rfl)
  unfold mergeFinish at hdoc
  rw [initMerger_inited hs.inited] at hdoc
  dsimp only at hdoc
  rw [hopen, if_neg (by decide), hp] at hdoc
  dsimp only at hdoc
  cases hmc : mergeCompresses c raw with
  | none => rw [hmc] at hdoc; cases hdoc; rfl
  | some comp =>
    rw [hmc] at hdoc
    dsimp only at hdoc
    have hcc : c.compression = some comp := by
      unfold mergeCompresses at hmc
      split at hmc
      · exact hmc
      · cases hmc
    cases hz : compress cs comp (raw.drop 6) with
    | error e => rw [hz] at hdoc; cases hdoc
    | ok z =>
    rw [hz] at hdoc
    dsimp only at hdoc
    cases hpl : placeCompressed comp raw slack z with
    | error e => rw [hpl] at hdoc; cases hdoc
    | ok placed =>
    rw [hpl] at hdoc
    dsimp only at hdoc
    cases hdt : mergeDocType c comp with
    | error e => rw [hdt] at hdoc; cases hdoc
    | ok dt =>
    rw [hdt] at hdoc
    cases hdoc
    -- the header
    obtain ⟨tags, t1, t2, t3⟩ := hs.tags
    obtain ⟨hver, hhead⟩ := ver_magic hs.ver hv tags
    have hml := magicOf_length c.ver
    have hrl := putLength_length hp
    have hlen := hs.len
    have hr6 : raw.take 6 = magicOf c.ver ++ [UInt8.ofNat (c.ver + 16 * 0)] ++ [0] := by
      have e1 : raw.take 6 = s0.buf.take 6 := by
        unfold putLength at hp
        split at hp
        · cases hp
          rw [List.append_assoc, List.take_append_of_le_length (by simp; omega), List.take_take]
          congr 1
          omega
        · cases hp
      have e2 : s0.buf.take 6 = (s0.buf.take 7).take 6 := by rw [List.take_take]; rfl
      rw [e1, e2, t3, List.take_take, hhead]
      show List.take 6 _ = _
      rw [List.append_assoc, List.append_assoc, List.append_assoc, List.take_append, List.take_of_length_le (by omega), hml]
      simp
    -- what was placed
    have hplaced : placed = raw.take 6 ++ z := by
      unfold placeCompressed at hpl
      split at hpl
      · cases hpl
      · next hfit =>
        split at hpl
        · cases hpl; rfl
        · next hne =>
          cases hpl
          have hzl : ∃ l, c.compression = some (.zlib l) := by
            cases comp with
            | snappy inc =>
              cases inc with
              | true => exact absurd rfl hne
              | false => cases hdt
            | zlib l => exact ⟨l, hcc⟩
            | zstd l => cases hdt
          have := hshort hzl
          simp at this
          have hle : z.length ≤ raw.length - 6 := by omega
          rw [List.take_of_length_le hle, show z.length - (raw.length - 6) = 0 by omega]
          simp
    have hdoc : placed.modify 4 (· ||| (UInt8.ofNat dt <<< 4)) = magicOf c.ver ++ [UInt8.ofNat (c.ver + 16 * dt)] ++ [0] ++ [] ++ z := by
      have hdtlt : dt < 16 := by
        cases comp with
        | snappy inc => cases inc <;> cases hdt; decide
        | zlib l =>
          unfold mergeDocType at hdt
          dsimp only at hdt
          split at hdt <;> cases hdt; decide
        | zstd l => cases hdt
      rw [hplaced, hr6, ← verbyte c.ver dt (by omega) hdtlt]
      match hm : magicOf c.ver, hml with
      | [a, b, c', d], _ => rfl
    rw [hdoc] at hds ⊢
    have hzle : z.length ≤ 2 ^ 31 - 1 := by simp at hds; omega
    have hraw2 : raw = magicOf c.ver ++ [UInt8.ofNat (c.ver + 16 * 0)] ++ [0] ++ [] ++ raw.drop 6 := by
      rw [List.append_nil, ← hr6, List.take_append_drop]
    have hD : IsDoc (magicOf c.ver ++ [UInt8.ofNat (c.ver + 16 * dt)] ++ [0] ++ [] ++ z) c.ver dt [0] [] z := by
      refine ⟨rfl, by omega, ?_, (by show (0 : UInt8).toNat < 128; decide), by decide, rfl, by omega⟩
      cases comp with
      | snappy inc => cases inc <;> cases hdt; decide
      | zlib l =>
        unfold mergeDocType at hdt
        dsimp only at hdt
        split at hdt <;> cases hdt; decide
      | zstd l => cases hdt
    have hR : IsDoc raw c.ver 0 [0] [] (raw.drop 6) :=
      ⟨hraw2, by omega, by omega, (by show (0 : UInt8).toNat < 128; decide), by decide, rfl, by omega⟩
    have hbl : (raw.drop 6).length ≤ 2 ^ 48 := by simp; omega
    have hbi := bodyInput_raw (cs := cs) hR
    rw [itemBuf_plainHead (by omega)] at hbi
    refine unmarshal_congr (x := (0 :: raw.drop 6, 1)) ?_ hbi
    cases comp with
    | snappy inc =>
      cases inc with
      | false => cases hdt
      | true =>
        cases hdt
        rw [bodyInput_doc (dc := some (.snappy true)) hD rfl (compress_snappy hl hz hzle), itemBuf_plainHead (by omega)]
    | zlib l =>
      unfold mergeDocType at hdt
      dsimp only at hdt
      split at hdt
      · cases hdt
      · next h3 =>
        cases hdt
        rw [bodyInput_doc (dc := some (.zlib 0)) hD ?_ (compress_zlib hl hz hzle hbl), itemBuf_plainHead (by omega)]
        unfold documentDecompressor
        rw [if_neg (by decide), if_neg (by decide), if_neg (by decide), if_pos rfl, if_neg h3]
    | zstd l => cases hdt

/-- An example for C39_partial. -/
example : ∃ doc s raw s',
    mergeFinish { compression := some (.snappy true), threshold := 0 } idCodecs [9, 9, 9, 9]
      (appendEach { compression := some (.snappy true), threshold := 0 } idCodecs sampleCalls {}).2 = (.ok doc, s) ∧
    mergeFinish {} idCodecs [] (appendEach {} idCodecs sampleCalls {}).2 = (.ok raw, s') ∧ doc ≠ raw ∧
    doc.length ≤ 100 ∧ raw.length ≤ 100 := by
  have e : (match (mergeFinish { compression := some (.snappy true), threshold := 0 } idCodecs [9, 9, 9, 9]
      (appendEach { compression := some (.snappy true), threshold := 0 } idCodecs sampleCalls {}).2).1,
      (mergeFinish {} idCodecs [] (appendEach {} idCodecs sampleCalls {}).2).1 with
      | .ok doc, .ok raw => decide (doc ≠ raw ∧ doc.length ≤ 100 ∧ raw.length ≤ 100)
      | _, _ => false) = true := by decide +kernel
  cases h1 : mergeFinish { compression := some (.snappy true), threshold := 0 } idCodecs [9, 9, 9, 9]
      (appendEach { compression := some (.snappy true), threshold := 0 } idCodecs sampleCalls {}).2 with
  | mk r s =>
  cases h2 : mergeFinish {} idCodecs [] (appendEach {} idCodecs sampleCalls {}).2 with
  | mk r' s' =>
  rw [h1, h2] at e
  cases r with
  | error _ => cases e
  | ok doc =>
  cases r' with
  | error _ => cases e
  | ok raw => exact ⟨doc, s, raw, s', rfl, rfl, of_decide_eq_true e⟩

/-- C39 as it stands. -/
def CompressionHarmless : Prop := ∀ (c : MCfg) (cs : Codecs), Lossless cs → ∀ (calls : List MCall)
  (slack slack' doc raw : Bytes) (s s' : MState),
  mergeFinish c cs slack (appendEach c cs calls {}).2 = (.ok doc, s) →
  mergeFinish c.uncompressed cs slack' (appendEach c.uncompressed cs calls {}).2 = (.ok raw, s') →
  ∀ dcfg : DCfg, (unmarshal dcfg cs raw).isOk = true → (unmarshal dcfg cs doc).isOk = true

/-- A merger that compresses with zlib. -/
def zlibMerger : MCfg := { compression := some (.zlib 0), threshold := 0 }

/-- C39 fails if the compressed body is longer than the body: `copy` stops at the end of the buffer, and the
rest of the document is whatever lies behind it in memory. -/
theorem C39_fails : ¬ CompressionHarmless := by
  intro hp
  let calls : List MCall := [⟨rawDoc [1], [], 0⟩]
  cases h1 : mergeFinish zlibMerger idCodecs (List.replicate 20 0x3f) (appendEach zlibMerger idCodecs calls {}).2 with
  | mk r1 s1 =>
  cases h2 : mergeFinish zlibMerger.uncompressed idCodecs [] (appendEach zlibMerger.uncompressed idCodecs calls {}).2 with
  | mk r2 s2 =>
  have e1 : ((mergeFinish zlibMerger idCodecs (List.replicate 20 0x3f) (appendEach zlibMerger idCodecs calls {}).2).1.map
      fun d => (unmarshal {} idCodecs d).isOk).toOption = some false := by decide +kernel
  have e2 : ((mergeFinish zlibMerger.uncompressed idCodecs []
      (appendEach zlibMerger.uncompressed idCodecs calls {}).2).1.map
      fun d => (unmarshal {} idCodecs d).isOk).toOption = some true := by decide +kernel
  rw [h1] at e1
  rw [h2] at e2
  cases r1 with
  | error e => cases e1
  | ok doc =>
  cases r2 with
  | error e => cases e2
  | ok raw =>
  have := hp zlibMerger idCodecs idCodecs_lossless calls _ _ doc raw s1 s2 h1 h2 {} (Option.some.inj e2)
  cases this.symm.trans (Option.some.inj e1)

end Sereal

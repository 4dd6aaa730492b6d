import Verif.Proof.Comp
import Verif.Props.C01
/-
C06, C07, C09, C21: what does not matter for the decoded data: key deduplication, map iteration order,
the user header, compression.
-/
namespace Sereal

/-! ### C06 -/

/-- C06, second half, for every value: an uncompressed document is an item of the grammar in which COPY
occurs only in the place of a key or class name, naming a complete literal string that ends before the
COPY tag; and the tree it denotes, with its keys and class names, is the one `Written` prescribes for
the value, so the string named is the right one. -/
theorem C06_copy (cfg : ECfg) (cs : Codecs) (inp : Heap) (header : Option Val) (v : Val) (doc : Bytes)
    (hver : cfg.version ≤ 3) (hord : ∀ n ks, (cfg.ord n ks).Perm ks) (hc : cfg.compression = none)
    (h : marshalWithHeader cfg cs inp header v = .ok doc) (hsz : doc.length ≤ 2 ^ 31 - 1) :
    ∃ ver lf suf body t, IsDoc doc ver 0 lf suf body ∧ Written cfg inp false v t ∧
      Denotes wrtDialect (itemBuf ver (headBytes ver 0 lf suf) body).1
        (itemBuf ver (headBytes ver 0 lf suf) body).2 t
        (itemBuf ver (headBytes ver 0 lf suf) body).1.length := by
  obtain ⟨lf, suf, body, t, h1, _, h3, h4, h5⟩ := raw_denotes hord hver hc h (by omega)
  exact ⟨_, lf, suf, body, t, h1, h3, h5 (h4.mono hsz)⟩

/-- C06 for finite values in which every pointer is met once: with DisableDedup and without it, both
documents decode, to the same data.  Missing for the full claim: values in which a pointer is met again. -/
theorem C06_partial (cfg : ECfg) (cs : Codecs) (inp : Heap) (header : Option Val) (v : Val) (dcfg : DCfg)
    (doc doc' : Bytes) (hver : cfg.version ≤ 3) (hord : ∀ n ks, (cfg.ord n ks).Perm ks)
    (hc : cfg.compression = none) (hv : Tidy cfg dcfg.view (2 ^ 31 - 1) inp v) (hu : Unshared cfg inp v)
    (h : marshalWithHeader { cfg with disableDedup := false } cs inp header v = .ok doc)
    (h' : marshalWithHeader { cfg with disableDedup := true } cs inp header v = .ok doc')
    (hsz : doc.length < 2 ^ 63) (hsz' : doc'.length < 2 ^ 63) :
    ∃ h1 v1 h2 v2, unmarshal dcfg cs doc = .ok (h1, v1) ∧ unmarshal dcfg cs doc' = .ok (h2, v2) ∧
      Iso h1 h2 v1 v2 :=
  two_docs (cfg := { cfg with disableDedup := false }) (cfg' := { cfg with disableDedup := true })
    (hv.alike ⟨rfl, rfl, rfl⟩) (hu.congr (c := cfg) (c' := { cfg with disableDedup := false }) rfl rfl)
    (hu.congr (c := cfg) (c' := { cfg with disableDedup := true }) rfl rfl) ⟨rfl, rfl, rfl⟩ hord hord hver hver hc hc h h' hsz hsz'

/-! ### C07 -/

/-- C07 for finite values in which every pointer is met once.  Two encoders that differ in the order of map
iteration (and perhaps in version, deduplication and recursion limit).  For shared pointers see C07_fails. -/
theorem C07_partial (cfg cfg' : ECfg) (cs : Codecs) (inp : Heap) (header : Option Val) (v : Val) (dcfg : DCfg)
    (doc doc' : Bytes) (hver : cfg.version ≤ 3) (hver' : cfg'.version ≤ 3)
    (hord : ∀ n ks, (cfg.ord n ks).Perm ks) (hord' : ∀ n ks, (cfg'.ord n ks).Perm ks)
    (hc : cfg.compression = none) (hc' : cfg'.compression = none) (ha : cfg.Alike cfg')
    (hv : Tidy cfg dcfg.view (2 ^ 31 - 1) inp v) (hu : Unshared cfg inp v) (hu' : Unshared cfg' inp v)
    (h : marshalWithHeader cfg cs inp header v = .ok doc)
    (h' : marshalWithHeader cfg' cs inp header v = .ok doc')
    (hsz : doc.length < 2 ^ 63) (hsz' : doc'.length < 2 ^ 63) :
    ∃ h1 v1 h2 v2, unmarshal dcfg cs doc = .ok (h1, v1) ∧ unmarshal dcfg cs doc' = .ok (h2, v2) ∧
      Iso h1 h2 v1 v2 :=
  two_docs hv hu hu' ha hord hord' hver hver' hc hc' h h' hsz hsz'

/-- {"a": p, "b": p} for a pointer p to an int variable holding 5. -/
def sharedHeap : Heap where
  mem a := if a = 1 then .mp [([97], .ptr false 2), ([98], .ptr false 2)]
    else if a = 2 then .cell (.int .int 5) else .cell .nil
  next := 3

/-- What Unmarshal finds under key "a": `some true` for a number, `some false` for something else. -/
def keyAIsInt (r : Res (Heap × Val)) : Option Bool :=
  match r with
  | .ok (h, .smap m) =>
    match mapLookup [97] (h.mapAt m) with
    | some (.int _ _) => some true
    | some _ => some false
    | none => none
  | _ => none

/-- Ranging over maps in order, or in reverse order. -/
def sharedCfg (reversed : Bool) : ECfg := { ord := fun _ ks => if reversed then ks.reverse else ks }

/-- The two documents of C07_fails. -/
def sharedDoc (reversed : Bool) : Res Bytes := marshal (sharedCfg reversed) noCodecs sharedHeap (.smap 1)

def sharedBytes (reversed : Bool) : Bytes :=
  match sharedDoc reversed with
  | .ok d => d
  | .error _ => []

theorem Iso.int_only {h1 h2 : Heap} {k : IntK} {i : Int64} {v : Val} (h : Iso h1 h2 (.int k i) v) : v = .int k i := by
  cases h; rfl

/-- C07 is false when a pointer occurs twice: whichever key is visited first decodes to the number, the
other one to a pointer to it; so the decoded data depends on the order of map iteration. -/
theorem C07_fails : ¬ ∀ (cfg cfg' : ECfg) (cs : Codecs) (inp : Heap) (v : Val) (dcfg : DCfg) (doc doc' : Bytes)
    (h1 h2 : Heap) (v1 v2 : Val), cfg.version = 3 → cfg'.version = 3 →
    (∀ n ks, (cfg.ord n ks).Perm ks) → (∀ n ks, (cfg'.ord n ks).Perm ks) →
    cfg.compression = none → cfg'.compression = none → cfg.Alike cfg' →
    marshal cfg cs inp v = .ok doc → marshal cfg' cs inp v = .ok doc' →
    unmarshal dcfg cs doc = .ok (h1, v1) → unmarshal dcfg cs doc' = .ok (h2, v2) → Iso h1 h2 v1 v2 := by
  intro H
  have e1 : keyAIsInt (unmarshal {} noCodecs (sharedBytes false)) = some true := by decide +kernel
  have e2 : keyAIsInt (unmarshal {} noCodecs (sharedBytes true)) = some false := by decide +kernel
  have d1 : sharedDoc false = .ok (sharedBytes false) := by decide +kernel
  have d2 : sharedDoc true = .ok (sharedBytes true) := by decide +kernel
  cases u1 : unmarshal {} noCodecs (sharedBytes false) with
  | error e => rw [u1] at e1; cases e1
  | ok p1 =>
    obtain ⟨h1, v1⟩ := p1
    cases u2 : unmarshal {} noCodecs (sharedBytes true) with
    | error e => rw [u2] at e2; cases e2
    | ok p2 =>
      obtain ⟨h2, v2⟩ := p2
      have hiso := H (sharedCfg false) (sharedCfg true) noCodecs sharedHeap (.smap 1) {}
        (sharedBytes false) (sharedBytes true) h1 h2 v1 v2 rfl rfl
        (fun _ ks => List.Perm.refl ks) (fun _ ks => List.reverse_perm ks) rfl rfl ⟨rfl, rfl, rfl⟩ d1 d2 u1 u2
      rw [u1] at e1
      rw [u2] at e2
      cases hiso with
      | @smap m m' _ _ _ hv =>
        simp only [keyAIsInt] at e1 e2
        cases l1 : mapLookup [97] (h1.mapAt m) with
        | none => rw [l1] at e1; cases e1
        | some x =>
          cases l2 : mapLookup [97] (h2.mapAt m') with
          | none => rw [l2] at e2; cases e2
          | some y =>
            rw [l1] at e1
            rw [l2] at e2
            have hxy := hv _ _ _ l1 l2
            cases x <;> simp at e1
            cases hxy
            simp at e2
      | _ => cases e1

/-! ### C09 -/

/-- C09.  For every header and body that both encode (compressed or not): in version 1 the header is
dropped, the document is the one without header; in later versions the bodies of the two documents are
the same bytes. -/
theorem C09_bytes (cfg : ECfg) (cs : Codecs) (inp : Heap) (header v : Val) (doc doc0 : Bytes)
    (hver : cfg.version ≤ 3) (h : marshalWithHeader cfg cs inp (some header) v = .ok doc)
    (h0 : marshal cfg cs inp v = .ok doc0) (hsz : doc.length < 2 ^ 63) :
    (cfg.version = 1 → doc = doc0) ∧
    (cfg.version ≠ 1 → ∃ ver dt lf suf body, ver ≠ 1 ∧ IsDoc doc ver dt lf suf body ∧
      IsDoc doc0 ver dt [0] [] body) := by
  obtain ⟨suffix, body, h1, h2, h3⟩ := marshal_ok.1 h
  obtain ⟨suffix0, body0, h10, h20, h30⟩ := marshal_ok.1 h0
  obtain rfl : [0] = suffix0 := by
    have : headerSuffix cfg inp none = .ok [0] := rfl
    rw [this] at h10; cases h10; rfl
  constructor
  · intro hv
    have hv' : cfg.ver = 1 := by unfold ECfg.ver; rw [if_neg (by omega)]; exact hv
    have hs : suffix = [0] := by
      unfold headerSuffix at h1
      dsimp only at h1
      rw [if_neg (by omega)] at h1
      cases h1; rfl
    subst hs
    rw [h2] at h20
    cases h20
    rcases h3 with ⟨hc, rfl⟩ | ⟨c, hc, hn, rfl⟩ | ⟨c, z, dt, hc, hy, hz, hd, rfl⟩ <;>
    rcases h30 with ⟨hc', rfl⟩ | ⟨c', hc', hn', rfl⟩ | ⟨c', z', dt', hc', hy', hz', hd', rfl⟩
    · rfl
    · rfl
    · rw [hc] at hc'; cases hc'
    · rfl
    · rfl
    · exact absurd hy' hn
    · rw [hc] at hc'; cases hc'
    · exact absurd hy hn'
    · rw [hc] at hc'; cases hc'
      rw [hz] at hz'; cases hz'
      rw [hd] at hd'; cases hd'
      rfl
  · intro hv
    have hv' : cfg.ver ≠ 1 := by unfold ECfg.ver; split <;> omega
    rw [if_neg hv'] at h2 h20
    rw [h2] at h20
    cases h20
    obtain ⟨w, rfl, hw⟩ := headerSuffix_split h1
    obtain ⟨hv1, hv3⟩ := ECfg.ver_range hver
    have hmk : ∀ (dt : Nat) (d w x : Bytes), dt < 16 → d.length < 2 ^ 63 →
        d = encHeader cfg (varint w.length ++ w) dt ++ x → IsDoc d cfg.ver dt (varint w.length) w x := by
      intro dt d w x hdt hdl hd
      rw [encHeader_eq hver hdt] at hd
      have hl : w.length < 2 ^ 64 := by
        have : w.length ≤ d.length := by rw [hd]; simp; omega
        omega
      exact ⟨by rw [hd]; simp, ⟨hv1, by omega⟩, by omega, isVarint_varint _, varint_length_le_ten hl,
        groups_varint _, hdl⟩
    have hz0 : varint ([] : Bytes).length ++ [] = [0] := by
      rw [show ([] : Bytes).length = 0 from rfl, varint_lt (by decide)]; rfl
    have hz1 : varint ([] : Bytes).length = [0] := by
      rw [show ([] : Bytes).length = 0 from rfl, varint_lt (by decide)]; rfl
    have both : ∀ dt x, dt < 16 → doc = encHeader cfg (varint w.length ++ w) dt ++ x →
        doc0 = encHeader cfg [0] dt ++ x → ∃ ver dt lf suf body, ver ≠ 1 ∧ IsDoc doc ver dt lf suf body ∧
          IsDoc doc0 ver dt [0] [] body := by
      intro dt x hdt hd hd0
      refine ⟨cfg.ver, dt, _, w, x, hv', hmk dt doc w x hdt hsz hd, ?_⟩
      have := hmk dt doc0 [] x hdt (by
        have hl : (varint w.length).length ≠ 0 := by
          have := varint_ne_nil w.length
          cases hx : varint w.length with
          | nil => exact absurd hx this
          | cons a b => simp
        rw [hd] at hsz
        rw [hd0]
        rw [encHeader_eq hver hdt] at hsz ⊢
        simp at hsz ⊢
        omega) (by rw [hz0]; exact hd0)
      rw [hz1] at this
      exact this
    rcases h3 with ⟨hc, rfl⟩ | ⟨c, hc, hn, rfl⟩ | ⟨c, z, dt, hc, hy, hz, hd, rfl⟩ <;>
    rcases h30 with ⟨hc', rfl⟩ | ⟨c', hc', hn', rfl⟩ | ⟨c', z', dt', hc', hy', hz', hd', rfl⟩
    · exact both 0 body (by omega) rfl rfl
    · exact both 0 body (by omega) rfl rfl
    · rw [hc] at hc'; cases hc'
    · exact both 0 body (by omega) rfl rfl
    · exact both 0 body (by omega) rfl rfl
    · exact absurd hy' hn
    · rw [hc] at hc'; cases hc'
    · exact absurd hy hn'
    · rw [hc] at hc'; cases hc'
      rw [hz] at hz'; cases hz'
      rw [hd] at hd'; cases hd'
      refine both dt z ?_ rfl rfl
      rcases compressionDoctype_lt hd with ⟨rfl, _⟩ | ⟨rfl, _⟩ | ⟨rfl, _⟩ <;> omega

/-- C09, the decoded data, for uncompressed documents and any body, pointers included: Unmarshal of the
documents with and without header yields the same data, whenever what is written for the body is a tree
that the decoder can represent (no reference to an enclosing item, no reference to nil, and so on: see
Supported); bodies in which every pointer is met once always are.  Missing for the full claim: bodies with
reference cycles, where decoded data cannot be compared by Iso. -/
theorem C09_partial (cfg : ECfg) (cs : Codecs) (inp : Heap) (header v : Val) (doc doc0 : Bytes)
    (hver : cfg.version ≤ 3) (hord : ∀ n ks, (cfg.ord n ks).Perm ks) (hc : cfg.compression = none)
    (h : marshalWithHeader cfg cs inp (some header) v = .ok doc)
    (h0 : marshal cfg cs inp v = .ok doc0) (hsz : doc.length ≤ 2 ^ 31 - 1) :
    (∃ t, Written cfg inp false v t ∧ ∀ dcfg : DCfg, Supported dcfg.view t →
      ∃ h1 v1 h2 v2, unmarshal dcfg cs doc = .ok (h1, v1) ∧ unmarshal dcfg cs doc0 = .ok (h2, v2) ∧
        Iso h1 h2 v1 v2) ∧
    (∀ dcfg : DCfg, Tidy cfg dcfg.view (2 ^ 31 - 1) inp v → Unshared cfg inp v →
      ∃ h1 v1 h2 v2, unmarshal dcfg cs doc = .ok (h1, v1) ∧ unmarshal dcfg cs doc0 = .ok (h2, v2) ∧
        Iso h1 h2 v1 v2) := by
  have key : ∃ t, Written cfg inp false v t ∧ (Unshared cfg inp v → Solo cfg inp false v t) ∧
      ∀ dcfg : DCfg, Supported dcfg.view t →
      ∃ h1 v1 h2 v2, unmarshal dcfg cs doc = .ok (h1, v1) ∧ unmarshal dcfg cs doc0 = .ok (h2, v2) ∧
        Iso h1 h2 v1 v2 := by
    obtain ⟨hb1, hb2⟩ := C09_bytes cfg cs inp header v doc doc0 hver h h0 (by omega)
    obtain ⟨lf, suf, body, pre0, pre, d1, _, d3, d4, d5, d6⟩ := raw_body hver hc h (by omega)
    have hb := bodyInput_raw (cs := cs) d1
    rw [d5] at hb
    have hfin : ∀ t, Fits (pre0.length + body.length) t → Fits maxSize t := fun t ht =>
      ht.mono (by simp at d6; unfold maxSize; omega)
    have hlen : pre0.length + body.length < 2 ^ 63 := by simp at d6; omega
    by_cases hv : cfg.version = 1
    · have hb0 := hb
      rw [hb1 hv] at hb0
      obtain ⟨t, hW, hS, hF, _, hU⟩ := same_body hord d3 hb hb0 d4.symm d4.symm hlen
      exact ⟨t, hW, hS, fun dcfg hs => hU dcfg (hfin t hF) hs⟩
    · have hl0 : doc0.length < 2 ^ 63 := by
        obtain ⟨ver, dt, lf', suf', body', _, e1, e2⟩ := hb2 hv
        exact e2.size
      obtain ⟨lf2, suf2, body2, pre02, pre2, e1, _, e3, e4, e5, e6⟩ := raw_body hver hc h0 hl0
      have hb0 := bodyInput_raw (cs := cs) e1
      rw [e5] at hb0
      have hv' : cfg.ver ≠ 1 := by unfold ECfg.ver; split <;> omega
      have hbb : body2 = body ∧ pre2.length = pre.length := by
        obtain ⟨ver, dt, lf', suf', body', hne, m1, m2⟩ := hb2 hv
        have snd : ∀ {hd b p : Bytes}, itemBuf cfg.ver hd b = (p ++ b, p.length) → p.length = 1 := by
          intro hd b p hp
          unfold itemBuf at hp
          rw [if_neg hv'] at hp
          exact (congrArg Prod.snd hp).symm
        exact ⟨(e1.body_unique m2).trans (d1.body_unique m1).symm, (snd e5).trans (snd d5).symm⟩
      rw [hbb.1] at hb0
      obtain ⟨t, hW, hS, hF, _, hU⟩ := same_body hord d3 hb hb0 d4.symm (by omega) hlen
      exact ⟨t, hW, hS, fun dcfg hs => hU dcfg (hfin t hF) hs⟩
  obtain ⟨t, hW, hS, hU⟩ := key
  exact ⟨⟨t, hW, hU⟩, fun dcfg hp hu => hU dcfg (hp.tree (hS hu)).1⟩

/-! ### C21 -/

/-- C21.  With lossless codecs: a compressed document of version 2 or 3 has the same outcome of
Unmarshal, down to the last detail (success or error, heap and value), as the document that the same
encoder without compression produces.  In version 1 the two documents decode to the same data whenever
what is written is representable (see C09_partial).  The sizes are the limits of the decoder.  The
combination of version 1 with SnappyCompressor{Incremental: true} is excluded, see C21_fails. -/
theorem C21_partial (cfg : ECfg) (cs : Codecs) (inp : Heap) (header : Option Val) (v : Val) (doc raw : Bytes)
    (hl : Lossless cs) (hver : cfg.version ≤ 3) (hord : ∀ n ks, (cfg.ord n ks).Perm ks)
    (hcombo : ¬ (cfg.version = 1 ∧ cfg.compression = some (.snappy true)))
    (h : marshalWithHeader cfg cs inp header v = .ok doc)
    (hr : marshalWithHeader cfg.uncompressed cs inp header v = .ok raw)
    (hsz : doc.length ≤ 2 ^ 31 - 1) (hrs : raw.length ≤ 2 ^ 48) :
    (cfg.version ≠ 1 → ∀ dcfg, unmarshal dcfg cs doc = unmarshal dcfg cs raw) ∧
    (cfg.version = 1 → (∃ t, Written cfg inp false v t ∧ ∀ dcfg : DCfg, Fits (2 ^ 31 - 1) t → Supported dcfg.view t →
        ∃ h1 v1 h2 v2, unmarshal dcfg cs doc = .ok (h1, v1) ∧ unmarshal dcfg cs raw = .ok (h2, v2) ∧
          Iso h1 h2 v1 v2) ∧
      (∀ dcfg : DCfg, Tidy cfg dcfg.view (2 ^ 31 - 1) inp v → Unshared cfg inp v →
        ∃ h1 v1 h2 v2, unmarshal dcfg cs doc = .ok (h1, v1) ∧ unmarshal dcfg cs raw = .ok (h2, v2) ∧
          Iso h1 h2 v1 v2)) := by
  have hcombo' : ¬ (cfg.ver = 1 ∧ cfg.compression = some (.snappy true)) := by
    rintro ⟨h1, h2⟩
    refine hcombo ⟨?_, h2⟩
    unfold ECfg.ver at h1
    split at h1
    · omega
    · exact h1
  obtain ⟨dt, w, body, z, h1, h2, h3⟩ := comp_body hl hver hcombo' h hr hsz hrs
  have h4 := bodyInput_raw (cs := cs) h2
  constructor
  · intro hv dcfg
    have hv' : cfg.ver ≠ 1 := by unfold ECfg.ver; split <;> omega
    refine unmarshal_congr h3 (h4.trans ?_)
    rw [itemBuf_doctype hv' 0 dt]
  · intro hv
    have hv' : cfg.ver = 1 := by unfold ECfg.ver; rw [if_neg (by omega)]; exact hv
    obtain ⟨lf, suf, body2, pre0, pre, d1, _, d3, d4, d5, d6⟩ := raw_body (cfg := cfg.uncompressed) hver rfl hr (by omega)
    obtain rfl := h2.body_unique d1
    rw [encodeAfter_uncompressed] at d3
    have hb := bodyInput_raw (cs := cs) d1
    rw [d5] at hb
    have hs : itemBuf cfg.ver (headBytes cfg.ver dt (varint w.length) w) body =
        (headBytes cfg.ver dt (varint w.length) w ++ body, (headBytes cfg.ver dt (varint w.length) w).length) := by
      unfold itemBuf; rw [if_pos hv']
    have hs0 : itemBuf cfg.ver (headBytes cfg.ver 0 (varint w.length) w) body =
        (headBytes cfg.ver 0 (varint w.length) w ++ body, (headBytes cfg.ver 0 (varint w.length) w).length) := by
      unfold itemBuf; rw [if_pos hv']
    rw [hs] at h3
    rw [hs0] at h4
    have hpl : (headBytes cfg.ver dt (varint w.length) w).length = pre.length := by
      rw [h4] at hb
      have : (headBytes cfg.ver 0 (varint w.length) w).length = pre.length := by
        injection hb with hb; exact congrArg Prod.snd hb
      rw [headBytes_length] at this ⊢
      exact this
    obtain ⟨t, hW, hS, hF, _, hU⟩ := same_body hord d3 h3 hb (by omega) (by omega) (by simp at d6; omega)
    refine ⟨⟨t, hW, fun dcfg hf hsup => hU dcfg hf hsup⟩, fun dcfg hp hu => ?_⟩
    have := hp.tree (hS hu)
    exact hU dcfg this.2 this.1

/-- Codecs that do nothing; they are lossless. -/
def idCodecs : Codecs where
  snappyEnc b := .ok b
  snappyDec b := .ok b
  zlibEnc _ b := .ok b
  zlibOpen _ := .ok ()
  zlibInflate b := .ok b
  zstdEnc _ b := .ok b
  zstdDec b := .ok b

theorem idCodecs_lossless : Lossless idCodecs where
  snappy b z h := by cases h; rfl
  zlib l b z h := by cases h; exact ⟨rfl, rfl⟩
  zstd l b z h := by cases h; rfl

/-- Does Unmarshal yield the int `i`? -/
def yieldsInt (r : Res (Heap × Val)) (i : Int64) : Bool :=
  match r with
  | .ok (_, .int .int j) => i = j
  | _ => false

/-- C21 fails for version 1 with SnappyCompressor{Incremental: true}: the body carries a length prefix,
but the header says it does not.  Here 5 is marshalled without error and 1 is unmarshalled. -/
theorem C21_fails : ¬ ∀ (cfg : ECfg) (cs : Codecs) (inp : Heap) (v : Val) (doc raw : Bytes) (dcfg : DCfg)
    (h1 h2 : Heap) (v1 v2 : Val), Lossless cs → cfg.version = 1 → (∀ n ks, (cfg.ord n ks).Perm ks) →
    marshal cfg cs inp v = .ok doc → marshal cfg.uncompressed cs inp v = .ok raw →
    unmarshal dcfg cs doc = .ok (h1, v1) → unmarshal dcfg cs raw = .ok (h2, v2) → Iso h1 h2 v1 v2 := by
  intro H
  have e1 : yieldsInt (unmarshal {} idCodecs [0x3d, 0x73, 0x72, 0x6c, 0x11, 0, 1, 5]) 1 = true := by decide +kernel
  have e2 : yieldsInt (unmarshal {} idCodecs [0x3d, 0x73, 0x72, 0x6c, 0x01, 0, 5]) 5 = true := by decide +kernel
  have d1 : marshal { version := 1, compression := some (.snappy true), compressionThreshold := 0 } idCodecs Heap.init
      (.int .int 5) = .ok [0x3d, 0x73, 0x72, 0x6c, 0x11, 0, 1, 5] := by decide +kernel
  have d2 : marshal { version := 1, compression := none, compressionThreshold := 0 } idCodecs Heap.init
      (.int .int 5) = .ok [0x3d, 0x73, 0x72, 0x6c, 0x01, 0, 5] := by decide +kernel
  cases u1 : unmarshal {} idCodecs [0x3d, 0x73, 0x72, 0x6c, 0x11, 0, 1, 5] with
  | error e => rw [u1] at e1; cases e1
  | ok p1 =>
    obtain ⟨h1, v1⟩ := p1
    cases u2 : unmarshal {} idCodecs [0x3d, 0x73, 0x72, 0x6c, 0x01, 0, 5] with
    | error e => rw [u2] at e2; cases e2
    | ok p2 =>
      obtain ⟨h2, v2⟩ := p2
      have hiso := H { version := 1, compression := some (.snappy true), compressionThreshold := 0 } idCodecs Heap.init
        (.int .int 5) _ _ {} h1 h2 v1 v2 idCodecs_lossless rfl (fun _ ks => List.Perm.refl ks) d1 d2 u1 u2
      rw [u1] at e1
      rw [u2] at e2
      cases hiso with
      | int =>
        simp only [yieldsInt] at e1 e2
        split at e1
        · rename_i h _ he
          cases he
          simp at e1 e2
          rw [← e1] at e2
          exact absurd e2 (by decide)
        · cases e1
      | _ => cases e1

/-! ### Examples -/

/-- A tidy value: the data of C05's example is tidy for every encoder and decoder. -/
theorem sample_tidy (c : ECfg) (w : ViewCfg) : Tidy c w (2 ^ 31 - 1) sampleHeap (.smap 1) := by
  refine .smap (by decide) (by decide) ?_ ?_
  · intro k v hv
    have := mapLookup_mem hv
    simp [Heap.mapAt, sampleHeap] at this
    rcases this with ⟨rfl, rfl⟩ | ⟨rfl, rfl⟩ <;> decide
  · intro k v hv
    have := mapLookup_mem hv
    simp [Heap.mapAt, sampleHeap] at this
    rcases this with ⟨rfl, rfl⟩ | ⟨rfl, rfl⟩
    · refine .slice (by decide) (fun i hi => ?_)
      have : i = 0 ∨ i = 1 ∨ i = 2 := by omega
      rcases this with rfl | rfl | rfl
      · exact .nil
      · exact .uint
      · exact .str (by decide)
    · exact .int

theorem sample_unshared (c : ECfg) : Unshared c sampleHeap (.smap 1) :=
  (sample_tidy c ({} : DCfg).view).unshared (sample_plain.noPointers c)

/-- [{"a": 1}, {"a": 2}], where deduplication matters: the second key is a COPY of the first. -/
def dedupHeap : Heap where
  mem a := if a = 1 then .cell (.smap 3) else if a = 2 then .cell (.smap 4)
    else if a = 3 then .mp [([97], .int .int 1)] else if a = 4 then .mp [([97], .int .int 2)] else .cell .nil
  next := 5

example : marshal {} noCodecs dedupHeap (.slice 1 2) =
    .ok [0x3d, 0xf3, 0x72, 0x6c, 3, 0, 0x2b, 2, 0x2a, 1, 0x27, 1, 97, 1, 0x2a, 1, 0x2f, 5, 2] := by decide +kernel

example : marshal { disableDedup := true } noCodecs dedupHeap (.slice 1 2) =
    .ok [0x3d, 0xf3, 0x72, 0x6c, 3, 0, 0x2b, 2, 0x2a, 1, 0x27, 1, 97, 1, 0x2a, 1, 0x27, 1, 97, 2] := by decide +kernel

/-- Documents with and without header: same body. -/
example : marshalWithHeader {} noCodecs dedupHeap (some (.str [98])) (.smap 3) =
    .ok [0x3d, 0xf3, 0x72, 0x6c, 3, 4, 1, 0x27, 1, 98, 0x2a, 1, 0x27, 1, 97, 1] := by decide +kernel

/-- A compressed document. -/
example : marshal { compression := some (.zlib 0), compressionThreshold := 0 } idCodecs dedupHeap (.smap 3) =
    .ok [0x3d, 0xf3, 0x72, 0x6c, 0x33, 0, 6, 6, 0x2a, 1, 0x27, 1, 97, 1] := by decide +kernel

/-- [&x, &y] where x is 5, y is [&z] and z is 6. -/
def ptrHeap : Heap where
  mem a := if a = 1 then .cell (.ptr false 3) else if a = 2 then .cell (.ptr false 4)
    else if a = 3 then .cell (.int .int 5) else if a = 4 then .cell (.slice 5 1)
    else if a = 5 then .cell (.ptr false 6) else if a = 6 then .cell (.int .int 6) else .cell .nil
  next := 7

theorem ptr_tidy (c : ECfg) (w : ViewCfg) : Tidy c w (2 ^ 31 - 1) ptrHeap (.slice 1 2) := by
  refine .slice (by decide) (fun i hi => ?_)
  have : i = 0 ∨ i = 1 := by omega
  rcases this with rfl | rfl
  · exact .ptr (fun _ => rfl) .int
  · refine .ptr (fun _ => rfl) (.slice (by decide) (fun i hi => ?_))
    obtain rfl : i = 0 := by omega
    exact .ptr (fun _ => rfl) .int

/-- What pointers there are inside of `w` is no more than what is in a set of values that contains `w`. -/
theorem PtrKey.within {c : ECfg} {h : Heap} {S : Val → Prop} {K : Addr → Prop}
    (hS : ∀ w, S w → (∀ a κ, OrdPtr h w a → IsKey c h a κ → K κ) ∧ ∀ u, Leads c h w u → S u) {w : Val} {κ : Addr}
    (hw : S w) (hk : PtrKey c h w κ) : K κ := by
  induction hk with
  | here ho hk => exact (hS _ hw).1 _ _ ho hk
  | deep hl _ ih => exact ih ((hS _ hw).2 _ hl)

theorem OrdPtr.addr {h : Heap} {b : Bool} {a a' : Addr} (ho : OrdPtr h (.ptr b a) a') : a' = a := by
  rcases ho with ho | ⟨ho, _⟩ <;> cases ho <;> rfl

theorem ptr_keys5 (c : ECfg) {κ : Addr} (hk : PtrKey c ptrHeap (.slice 5 1) κ) : κ = 6 := by
  refine PtrKey.within (S := fun w => w = .slice 5 1 ∨ w = .ptr false 6 ∨ w = .int .int 6) (K := fun κ => κ = 6) ?_
    (.inl rfl) hk
  rintro w (rfl | rfl | rfl)
  · refine ⟨fun a κ ho => (by rcases ho with ho | ⟨ho, _⟩ <;> cases ho), fun u hu => ?_⟩
    rcases hu with hu | hu | ⟨a, ho, _⟩
    · generalize hv : Val.slice 5 1 = v at hu
      cases hu <;> cases hv
      rename_i i hi
      obtain rfl : i = 0 := by omega
      exact .inr (.inl rfl)
    · cases hu
    · rcases ho with ho | ⟨ho, _⟩ <;> cases ho
  · refine ⟨fun a κ ho hk => ?_, fun u hu => ?_⟩
    · obtain rfl := ho.addr
      rcases hk with hk | ⟨hk, hn⟩
      · exact hk
      · exact absurd hk hn
    · rcases hu with hu | hu | ⟨a, ho, rfl⟩
      · cases hu with | perl h => exact absurd h id
      · cases hu
      · obtain rfl := ho.addr
        exact .inr (.inr rfl)
  · refine ⟨fun a κ ho => (by rcases ho with ho | ⟨ho, _⟩ <;> cases ho), fun u hu => ?_⟩
    rcases hu with hu | hu | ⟨a, ho, _⟩
    · cases hu
    · cases hu
    · rcases ho with ho | ⟨ho, _⟩ <;> cases ho

theorem int_keys (c : ECfg) (h : Heap) (k : IntK) (i : Int64) (κ : Addr) : ¬ PtrKey c h (.int k i) κ :=
  NoPointers.no_key (Plain.noPointers (n := 0) .int c) κ

/-- Each of the three pointers is met once. -/
theorem ptr_unshared (c : ECfg) : Unshared c ptrHeap (.slice 1 2) := by
  have hp : ∀ a, ¬ PerlThing (ptrHeap.cellAt a) → OrdPtr ptrHeap (.ptr false a) a := fun a h => .inr ⟨rfl, h⟩
  refine .slice (fun i hi => ?_) (fun i j h1 h2 => ?_)
  · have : i = 0 ∨ i = 1 := by omega
    rcases this with rfl | rfl
    · exact .ptr (hp 3 id) (.plain trivial) (int_keys c _ _ _ _)
    · refine .ptr (hp 4 id) (.slice (fun i hi => ?_) (fun i j h1 h2 => by omega)) (fun hk => absurd (ptr_keys5 c hk) (by decide))
      obtain rfl : i = 0 := by omega
      exact .ptr (hp 6 id) (.plain trivial) (int_keys c _ _ _ _)
  · obtain ⟨rfl, rfl⟩ : i = 0 ∧ j = 1 := by omega
    intro κ h1 h2
    have k1 : κ = 3 := by
      cases (show PtrKey c ptrHeap (.ptr false 3) κ from h1) with
      | here ho hk =>
        obtain rfl := ho.addr
        rcases hk with hk | ⟨hk, hn⟩
        · exact hk
        · exact absurd hk hn
      | deep hl hk =>
        rcases hl with hl | hl | ⟨a, ho, rfl⟩
        · cases hl with | perl h => exact absurd h id
        · cases hl
        · obtain rfl := ho.addr
          exact absurd hk (int_keys c _ _ _ _)
    subst k1
    cases (show PtrKey c ptrHeap (.ptr false 4) 3 from h2) with
    | here ho hk =>
      obtain rfl := ho.addr
      rcases hk with hk | ⟨hk, _⟩
      · exact absurd hk (by decide)
      · exact absurd hk (by change ¬ (3 = 5); decide)
    | deep hl hk =>
      rcases hl with hl | hl | ⟨a, ho, rfl⟩
      · cases hl with | perl h => exact absurd h id
      · cases hl
      · obtain rfl := ho.addr
        exact absurd (ptr_keys5 c hk) (by decide)

/-- It is written with a REFN for each pointer, PerlCompat or not. -/
example : marshal {} noCodecs ptrHeap (.slice 1 2) =
      .ok [0x3d, 0xf3, 0x72, 0x6c, 3, 0, 0x2b, 2, 0x28, 5, 0x28, 0x2b, 1, 0x28, 6] ∧
    marshal { perlCompat := true } noCodecs ptrHeap (.slice 1 2) =
      .ok [0x3d, 0xf3, 0x72, 0x6c, 3, 0, 0x28, 0x2b, 2, 0x28, 5, 0x28, 0x2b, 1, 0x28, 6] := by decide +kernel

end Sereal

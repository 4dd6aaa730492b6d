import Verif.Proof.MergeFlat
import Verif.Proof.MergeSane
import Verif.Props.C06
/-
C35, C36, C40: what `Merger` makes of the documents appended.
-/
namespace Sereal

theorem finish_raw_length {c : MCfg} {cs : Codecs} {slack doc : Bytes} {s s' : MState} (hi : s.inited = true)
    (hc : c.compression = none) (hf : mergeFinish c cs slack s = (.ok doc, s')) : doc.length = s.buf.length := by
  unfold mergeFinish at hf
  rw [initMerger_inited hi] at hf
  dsimp only at hf
  split at hf
  · cases hf; rfl
  · cases hp : putLength s.buf s.lenOffset s.length with
    | error e => rw [hp] at hf; cases hf
    | ok b =>
      rw [hp] at hf
      dsimp only at hf
      have : mergeCompresses c b = none := by unfold mergeCompresses; rw [hc]; split <;> rfl
      rw [this] at hf
      cases hf
      exact putLength_length hp

theorem appendAll_inited {c : MCfg} {cs : Codecs} {k : MCall} {ks : List MCall} {s s' : MState} {ns : List Nat}
    (h : appendAll c cs (k :: ks) s = some (ns, s')) : s'.inited = true := by
  induction ks generalizing k s ns with
  | nil =>
    rw [appendAll] at h
    split at h
    · next h1 => cases h; exact mergeAppend_inited h1
    · cases h
  | cons k' ks ih =>
    rw [appendAll] at h
    split at h
    · next n s1 h1 =>
      cases h2 : appendAll c cs (k' :: ks) s1 with
      | none => rw [h2] at h; cases h
      | some r => rw [h2] at h; cases h; exact ih h2
    · cases h

theorem Supported.top {vc : ViewCfg} {top : TopLevel} {ts : List Tree} (h : ∀ t ∈ ts, Supported vc t) :
    Supported vc (topTree top ts) := by
  cases top
  · exact .arr h
  · exact .ref (.arr h)
  · exact .arr h

/-- The result of `Finish`, for documents that contribute `uss`. -/
theorem merged_doc {c : MCfg} {cs : Codecs} {calls : List MCall} {uss : List (List Tree)} {ns : List Nat}
    {s s' : MState} {slack doc : Bytes} (hv : c.version ≠ 1) (hc : c.compression = none)
    (hdd : c.dedupeStrings = false)
    (hh : Each (fun k us => Adds c cs k.doc us ∧ ∀ t ∈ us, Movable t) calls uss)
    (happ : appendAll c cs calls {} = some (ns, s)) (hfin : mergeFinish c cs slack s = (.ok doc, s'))
    (hn : uss.flatten.length ≤ maxSize) (hsz : doc.length < 2 ^ 63) :
    ns = uss.map List.length ∧
    ∃ body j, IsDoc doc c.ver 0 [0] [] body ∧ Denotes wrtDialect (0 :: body) 1 (topTree c.topLevel uss.flatten) j ∧
      ∀ dcfg : DCfg, (∀ t ∈ uss.flatten, Supported dcfg.view t) →
        ∃ h v, unmarshal dcfg cs doc = .ok (h, v) ∧ Shows dcfg.view h v (topTree c.topLevel uss.flatten) := by
  have hl : s.buf.length < 2 ^ 63 := by
    cases calls with
    | nil => cases happ; decide
    | cons k ks => rw [← finish_raw_length (appendAll_inited happ) hc hfin]; exact hsz
  obtain ⟨s0, h1, h2, h3, -⟩ := merged_good hdd hh happ hfin hl
  have hp := mergeFinish_raw h1.inited h1.open_ h2 (fun b _ => by unfold mergeCompresses; rw [hc]; split <;> rfl)
  obtain ⟨body, j, d1, d2, d3, d4⟩ := h1.denotes hv hn hp hsz
  exact ⟨h3, body, j, d1, d4, fun dcfg hs => raw_unmarshal d1 (by omega) d4 cs dcfg (.top hs)⟩

theorem flatten_singles (ts : List Tree) : (ts.map fun t => [t]).flatten = ts := by
  induction ts with
  | nil => rfl
  | cons t ts ih => simp [ih]

theorem Each.singles {R : MCall → Tree → Prop} {S : MCall → List Tree → Prop} {ks : List MCall} {ts : List Tree}
    (h : Each R ks ts) (f : Tree → List Tree) (hrs : ∀ k t, R k t → S k (f t)) : Each S ks (ts.map f) := by
  induction h with
  | nil => exact .nil
  | cons h _ ih => exact .cons (hrs _ _ h) ih

/-- C35, for documents (of version 2 or later, below 2 GB) without REFP, ALIAS, COPY of values, empty class
names and regexps with empty parts; without compression (see C39), KeepFlat (see C40) and DedupeStrings.
If every `Append` succeeds, `Finish` returns a document for the array of the items of the documents,
in order; decoders show it that way; and every `Append` returns 1. -/
theorem C35_partial (c : MCfg) (cs : Codecs) (calls : List MCall) (ts : List Tree) (ns : List Nat) (s s' : MState)
    (slack doc : Bytes) (hv : c.version ≠ 1) (hc : c.compression = none) (hdd : c.dedupeStrings = false)
    (hkf : c.keepFlat = false)
    (hdocs : Each (fun k t => DocHolds cs k.doc t ∧ Movable t) calls ts)
    (happ : appendAll c cs calls {} = some (ns, s)) (hfin : mergeFinish c cs slack s = (.ok doc, s'))
    (hn : ts.length ≤ maxSize) (hsz : doc.length < 2 ^ 63) :
    ns = ts.map (fun _ => 1) ∧
    ∃ body j, IsDoc doc c.ver 0 [0] [] body ∧ Denotes wrtDialect (0 :: body) 1 (topTree c.topLevel ts) j ∧
      ∀ dcfg : DCfg, (∀ t ∈ ts, Supported dcfg.view t) →
        ∃ h v, unmarshal dcfg cs doc = .ok (h, v) ∧ Shows dcfg.view h v (topTree c.topLevel ts) := by
  have := merged_doc hv hc hdd (hdocs.singles (fun t => [t]) fun k t h => ⟨h.1.adds hkf, by simpa using h.2⟩)
    happ hfin (by rw [flatten_singles]; exact hn) hsz
  rw [flatten_singles, List.map_map] at this
  exact this

/-- A document `Marshal` wrote for plain data. -/
theorem Plain.doc {cfg : ECfg} {cs : Codecs} {inp : Heap} {v : Val} {doc : Bytes} (hp : Plain maxSize inp v)
    (hord : ∀ n ks, (cfg.ord n ks).Perm ks) (hver : cfg.ver = 2 ∨ cfg.ver = 3) (hc : cfg.compression = none)
    (h : marshal cfg cs inp v = .ok doc) (hsz : doc.length < 2 ^ 31) :
    ∃ t, DocHolds cs doc t ∧ Movable t ∧ Written cfg inp false v t := by
  have hver3 : cfg.version ≤ 3 := by unfold ECfg.ver at hver; split at hver <;> omega
  obtain ⟨lf, suf, body, t, h1, h2, h3, h4, h5⟩ := raw_denotes hord hver3 hc h (by omega)
  obtain ⟨hs, hF⟩ := hp.tree ⟨false, false, fun _ => none⟩ h3
  have hd := h5 hF
  obtain ⟨pre, p1, p2, p3, p4⟩ := itemBuf_pre cfg.ver 0 lf suf
  rw [p4 body] at hd
  have hp1 := p3 (by omega)
  have hbl : doc.length = (headBytes cfg.ver 0 lf suf).length + body.length := by rw [h1.eq_head]; simp
  have hhl := headBytes_length cfg.ver 0 lf suf
  match pre, hp1, hd with
  | [y], _, hd =>
    exact ⟨t, ⟨body, y, _, ⟨cfg.ver, 0, lf, suf, body, none, h1, by omega, rfl, rfl⟩, by omega, hd⟩,
      hp.movable h3, h3⟩

theorem Each.length {α β : Type} {R : α → β → Prop} {as : List α} {bs : List β} (h : Each R as bs) :
    as.length = bs.length := by
  induction h with
  | nil => rfl
  | cons _ _ ih => simp [ih]

/-- C35 for documents written by `Marshal` (version 2 or 3, no compression) from plain data: merging them
and decoding the result gives the slice of these data. -/
theorem C35_values (c : MCfg) (cs : Codecs) (inp : Heap) (calls : List MCall) (vs : List Val) (ns : List Nat)
    (s s' : MState) (slack doc : Bytes) (hv : c.version ≠ 1) (hc : c.compression = none)
    (hdd : c.dedupeStrings = false) (hkf : c.keepFlat = false)
    (hdocs : Each (fun k v => Plain maxSize inp v ∧ k.doc.length < 2 ^ 31 ∧ ∃ cfg : ECfg,
      (∀ n ks, (cfg.ord n ks).Perm ks) ∧ (cfg.ver = 2 ∨ cfg.ver = 3) ∧ cfg.compression = none ∧
      marshal cfg cs inp v = .ok k.doc) calls vs)
    (happ : appendAll c cs calls {} = some (ns, s)) (hfin : mergeFinish c cs slack s = (.ok doc, s'))
    (hn : vs.length ≤ maxSize) (hsz : doc.length < 2 ^ 63) (dcfg : DCfg) (hd : dcfg.perlCompat = false) :
    ∃ h p, unmarshal dcfg cs doc = .ok (h, .slice p vs.length) ∧
      ∀ i v, vs[i]? = some v → Same inp h v (h.cellAt (p + i)) := by
  have key : ∃ ts, Each (fun k t => DocHolds cs k.doc t ∧ Movable t) calls ts ∧
      Each (fun v t => ∃ cfg : ECfg, Plain maxSize inp v ∧ Written cfg inp false v t) vs ts := by
    clear happ hn
    induction hdocs with
    | nil => exact ⟨[], .nil, .nil⟩
    | cons h _ ih =>
      obtain ⟨ts, i1, i2⟩ := ih
      obtain ⟨hp, hl, cfg, ho, hve, hco, hm⟩ := h
      obtain ⟨t, t1, t2, t3⟩ := hp.doc ho hve hco hm hl
      exact ⟨t :: ts, .cons ⟨t1, t2⟩ i1, .cons ⟨cfg, hp, t3⟩ i2⟩
  obtain ⟨ts, k1, k2⟩ := key
  have hlen := k2.length
  obtain ⟨-, body, j, -, -, hu⟩ := C35_partial c cs calls ts ns s s' slack doc hv hc hdd hkf k1 happ hfin
    (by omega) hsz
  have hsup : ∀ t ∈ ts, Supported dcfg.view t := by
    clear k1 hu hlen hdocs hn
    induction k2 with
    | nil => intro t ht; cases ht
    | cons h _ ih =>
      obtain ⟨cfg, hp, hw⟩ := h
      intro t ht
      rcases List.mem_cons.1 ht with rfl | ht
      · exact (hp.tree dcfg.view hw).1
      · exact ih t ht
  obtain ⟨h, v, u1, u2⟩ := hu dcfg hsup
  have hpc : dcfg.view.perlCompat = false := hd
  have harr : Shows dcfg.view h v (.arr ts) := by
    cases htop : c.topLevel with
    | array => rw [htop] at u2; exact u2
    | invalid => rw [htop] at u2; exact u2
    | arrayRef =>
      rw [htop] at u2
      change Shows dcfg.view h v (.ref (.arr ts)) at u2
      cases u2 with
      | ref _ h => exact h
      | refP h => rw [hpc] at h; cases h
  obtain ⟨p, rfl, hp⟩ := harr.arr_inv
  refine ⟨h, p, by rw [hlen]; exact u1, ?_⟩
  have pair : ∀ (i : Nat) (v : Val), vs[i]? = some v → ∃ t cfg, ts[i]? = some t ∧ Plain maxSize inp v ∧
      Written cfg inp false v t := by
    clear k1 hu hlen hdocs hn hsup u1 u2 harr hp
    induction k2 with
    | nil => intro i v h; simp at h
    | @cons v0 t0 vs ts h _ ih =>
      obtain ⟨cfg, hp, hw⟩ := h
      intro i v hi
      cases i with
      | zero => simp at hi; subst hi; exact ⟨t0, cfg, rfl, hp, hw⟩
      | succ i => simpa using ih i v (by simpa using hi)
  intro i v hi
  obtain ⟨t, cfg, h1, h2, h3⟩ := pair i v hi
  exact h2.same hpc h3 (hp i t h1)

/-- What one finds by descending into slices. -/
def atPath (h : Heap) : List Nat → Val → Option Val
  | [], v => some v
  | i :: is, .slice p n => if i < n then atPath h is (h.cellAt (p + i)) else none
  | _ :: _, _ => none

/-- A consequence of C35: byte strings of the documents are in the merged document. -/
def StringsMerge : Prop := ∀ (c : MCfg) (cs : Codecs) (calls : List MCall) (ns : List Nat) (s s' : MState)
  (slack doc : Bytes) (k : Nat) (call : MCall) (cfg : DCfg) (h h' : Heap) (v v' : Val),
  appendAll c cs calls {} = some (ns, s) → mergeFinish c cs slack s = (.ok doc, s') → calls[k]? = some call →
  unmarshal cfg cs call.doc = .ok (h, v) → unmarshal cfg cs doc = .ok (h', v') →
  ∀ path x, atPath h path v = some (.bin x) → atPath h' (k :: path) v' = some (.bin x)

/-- A row of successful `Append`s and a successful `Finish` (for examples). -/
structure MRun where
  counts : List Nat
  before : MState
  doc : Bytes
  after : MState

def mergeRun (c : MCfg) (cs : Codecs) (calls : List MCall) (slack : Bytes) : Option MRun :=
  match appendAll c cs calls {} with
  | none => none
  | some (ns, s) =>
    match mergeFinish c cs slack s with
    | (.ok doc, s') => some ⟨ns, s, doc, s'⟩
    | (.error _, _) => none

theorem mergeRun_some {c : MCfg} {cs : Codecs} {calls : List MCall} {slack : Bytes} {r : MRun}
    (h : mergeRun c cs calls slack = some r) :
    appendAll c cs calls {} = some (r.counts, r.before) ∧ mergeFinish c cs slack r.before = (.ok r.doc, r.after) := by
  unfold mergeRun at h
  split at h
  · cases h
  · next ns s h1 =>
    split at h
    · next doc s' h2 => cases h; exact ⟨h1, h2⟩
    · cases h

theorem mergeRun_map {α β : Type} {o : Option MRun} {f : MRun → α} {g : MRun → β} {a : α} {b : β}
    (h : o.map (fun r => (f r, g r)) = some (a, b)) : ∃ r, o = some r ∧ f r = a ∧ g r = b := by
  cases o with
  | none => cases h
  | some r => cases h; exact ⟨r, rfl, rfl, rfl⟩

/-- A raw document of version 3. -/
def rawDoc (body : Bytes) : Bytes := [0x3d, 0xf3, 0x72, 0x6c, 3, 0] ++ body

/-- An array of "aaaaa", a tracked reference to 1, 5, and a REFP to that reference. -/
def refpDoc : Bytes := rawDoc [0x44, 0x65, 0x61, 0x61, 0x61, 0x61, 0x61, 0x28 + 128, 1, 5, 0x29, 8]

def isBin : Option Val → Option Bytes
  | some (.bin x) => some x
  | _ => none

/-- The byte string at `path` of the decoded document. -/
def binAt (path : List Nat) (doc : Bytes) : Option Bytes :=
  match unmarshal {} noCodecs doc with
  | .ok (h, v) => isBin (atPath h path v)
  | .error _ => none

/-- C35 fails for documents with REFP: the track bit of the referenced item is set five bytes before it, here
in a string. -/
theorem C35_fails : ¬ StringsMerge := by
  intro hp
  have e1 : (mergeRun {} noCodecs [⟨refpDoc, [], 0⟩] []).map (fun r => (binAt [0] refpDoc, binAt [0, 0] r.doc)) =
      some (some [0x61, 0x61, 0x61, 0x61, 0x61], some [0xe1, 0x61, 0x61, 0x61, 0x61]) := by decide +kernel
  obtain ⟨r, hr, h3, h4⟩ := mergeRun_map e1
  unfold binAt at h3 h4
  split at h3
  · next h v hu =>
    split at h4
    · next h' v' hu' =>
      have hb : ∀ {o : Option Val} {x : Bytes}, isBin o = some x → o = some (.bin x) := by
        intro o x ho
        unfold isBin at ho
        split at ho
        · cases ho; rfl
        · cases ho
      obtain ⟨h1, h2⟩ := mergeRun_some hr
      have := hp {} noCodecs _ _ _ _ [] _ 0 ⟨refpDoc, [], 0⟩ {} h h' v v' h1 h2 rfl hu hu' [0] _ (hb h3)
      rw [hb h4] at this
      exact absurd this (by decide)
    · cases h4
  · cases h3

/-- "aaaaa", a pointer, 5, and the same pointer again. -/
def refHeap : Heap where
  mem a := match a with
    | 1 => .cell (.bin [0x61, 0x61, 0x61, 0x61, 0x61])
    | 2 | 4 => .cell (.ptr false 8)
    | 3 => .cell (.int .int 5)
    | 8 => .cell (.int .int 1)
    | _ => .cell .nil
  next := 9

def refHeapDoc : Bytes := rawDoc [0x2b, 4, 0x65, 0x61, 0x61, 0x61, 0x61, 0x61, 0x28 + 128, 1, 5, 0x29, 9]

/-- It also fails for a document `Marshal` writes, with all options of Encoder and Merger as they are by default:
the string "aaaaa" comes out as "\xe1aaaa". -/
theorem C35_fails_marshal : marshal {} noCodecs refHeap (.slice 1 4) = .ok refHeapDoc ∧
    (mergeRun {} noCodecs [⟨refHeapDoc, [], 0⟩] []).map (fun r => (binAt [0] refHeapDoc, binAt [0, 0] r.doc)) =
      some (some [0x61, 0x61, 0x61, 0x61, 0x61], some [0xe1, 0x61, 0x61, 0x61, 0x61]) := by
  constructor <;> decide +kernel

/-- With DedupeStrings, C35 fails for a document with a byte string and a text string of the same bytes: both come out
as byte strings. -/
theorem C35_fails_dedupe :
    (mergeRun { dedupeStrings := true } noCodecs [⟨rawDoc [0x42, 0x62, 0x61, 0x61, 0x27, 2, 0x61, 0x61], [], 0⟩] []).map
      (fun r => (binAt [1] (rawDoc [0x42, 0x62, 0x61, 0x61, 0x27, 2, 0x61, 0x61]), binAt [0, 1] r.doc)) =
      some (none, some [0x61, 0x61]) := by decide +kernel

/-- Another consequence of C35: if all documents can be decoded then the merged one can. -/
def MergedReadable : Prop := ∀ (c : MCfg) (cs : Codecs) (calls : List MCall) (ns : List Nat) (s s' : MState)
  (slack doc : Bytes), (∀ k ∈ calls, ∃ r, unmarshal {} cs k.doc = .ok r) → appendAll c cs calls {} = some (ns, s) →
  mergeFinish c cs slack s = (.ok doc, s') → ∃ r, unmarshal {} cs doc = .ok r

/-- An array of a tracked object, 5, and a REFP to the object. -/
def refpObjDoc : Bytes := rawDoc [0x43, 0x2c + 128, 0x61, 0x41, 1, 5, 0x29, 2]

/-- That fails for references to objects: the merger remembers the position of the class name for that of the
object (merge.go:567, 586), and the REFP it writes names the class name. -/
theorem C35_fails_object : ¬ MergedReadable := by
  intro hp
  have e1 : (mergeRun {} noCodecs [⟨refpObjDoc, [], 0⟩] []).map
      (fun r => ((unmarshal {} noCodecs refpObjDoc).isOk, (unmarshal {} noCodecs r.doc).isOk)) =
      some (true, false) := by decide +kernel
  obtain ⟨r, hr, h3, h4⟩ := mergeRun_map e1
  obtain ⟨h1, h2⟩ := mergeRun_some hr
  obtain ⟨q, hq⟩ := hp {} noCodecs _ _ _ _ [] _ (by
    intro k hk
    rw [List.mem_singleton.1 hk]
    cases hu : unmarshal {} noCodecs refpObjDoc with
    | ok q => exact ⟨q, rfl⟩
    | error e => rw [hu] at h3; cases h3) h1 h2
  rw [hq] at h4
  cases h4

/-! ### An example for C35: {"kk": 5} in Perl notation twice, as `Marshal` writes it, and a string -/

def sampleMapDoc : Bytes := rawDoc [0x28, 0x2a, 1, 0x62, 0x6b, 0x6b, 5]
def sampleStrDoc : Bytes := rawDoc [0x27, 2, 0x68, 0x69]

theorem sampleMapDoc_holds (cs : Codecs) : DocHolds cs sampleMapDoc (.ref (.map [([0x6b, 0x6b], .int 5)])) := by
  refine ⟨[0x28, 0x2a, 1, 0x62, 0x6b, 0x6b, 5], 0, 8, ⟨3, 0, [0], [], _, none, ?_, by omega, rfl, rfl⟩, by decide, _,
    .plainC .refn (b := 0x28) rfl (by decide) (by decide) rfl (.refn
      (.plainC .hash (b := 0x2a) rfl (by decide) (by decide) rfl
        (.hash (n := 1) (j := 4) (Vint.of_span ⟨?_, by decide +kernel⟩ (by omega)) (by decide) (.pairsCons (x := 7) (.lit ?_)
          (.plainC (.int 5) (b := 5) rfl (by decide) (by decide) rfl .int) .pairsNil))))⟩
  · exact ⟨rfl, by omega, by omega, (by show (0 : UInt8).toNat < 128; decide), by decide, rfl, by decide⟩
  · exact ⟨[0x62, 0x6b, 0x6b, 5], by decide +kernel⟩
  · exact .short (k := 4) (b := 0x62) (n := 2) (.here rfl (by decide)) rfl ⟨⟨[5], rfl⟩, rfl⟩ rfl

theorem sampleStrDoc_holds (cs : Codecs) : DocHolds cs sampleStrDoc (.str [0x68, 0x69]) := by
  refine ⟨[0x27, 2, 0x68, 0x69], 0, 5, ⟨3, 0, [0], [], _, none, ?_, by omega, rfl, rfl⟩, by decide, _,
    .plainC .strUtf8 (b := 0x27) rfl (by decide) (by decide) rfl
      (.strUtf8 (n := 2) (j := 3) (Vint.of_span ⟨?_, by decide +kernel⟩ (by omega)) (by decide) ⟨⟨[], rfl⟩, rfl⟩ rfl)⟩
  · exact ⟨rfl, by omega, by omega, (by show (0 : UInt8).toNat < 128; decide), by decide, rfl, by decide⟩
  · exact ⟨[0x68, 0x69], by decide +kernel⟩

def sampleCalls : List MCall := [⟨sampleMapDoc, [], 0⟩, ⟨sampleStrDoc, [], 0⟩, ⟨sampleMapDoc, [], 0⟩]

/-- The second "kk" becomes a COPY. -/
example : (mergeRun {} noCodecs sampleCalls []).map MRun.doc = some (rawDoc
    ([0x28, 0x2b, 3, 0x3f, 0x3f, 0x3f, 0x3f] ++ [0x28, 0x2a, 1, 0x62, 0x6b, 0x6b, 5] ++ [0x27, 2, 0x68, 0x69] ++
      [0x28, 0x2a, 1, 0x2f, 11, 5])) := by decide +kernel

/-- The hypotheses of C35_partial hold for these documents. -/
example : ∃ ns s doc s', appendAll {} noCodecs sampleCalls {} = some (ns, s) ∧
    mergeFinish {} noCodecs [] s = (.ok doc, s') ∧ doc.length < 2 ^ 63 ∧
    Each (fun k t => DocHolds noCodecs k.doc t ∧ Movable t) sampleCalls
      [.ref (.map [([0x6b, 0x6b], .int 5)]), .str [0x68, 0x69], .ref (.map [([0x6b, 0x6b], .int 5)])] := by
  have e : (mergeRun {} noCodecs sampleCalls []).map (fun r => (r.doc.length, ())) = some (30, ()) := by decide +kernel
  obtain ⟨r, hr, h3, -⟩ := mergeRun_map e
  obtain ⟨h1, h2⟩ := mergeRun_some hr
  have hm : Movable (.ref (.map [([0x6b, 0x6b], .int 5)])) := .ref (.map (by
    intro kv hkv
    rcases List.mem_cons.1 hkv with rfl | h
    · exact .int
    · cases h))
  exact ⟨_, _, _, _, h1, h2, by rw [h3]; decide,
    .cons ⟨sampleMapDoc_holds _, hm⟩ (.cons ⟨sampleStrDoc_holds _, .str⟩ (.cons ⟨sampleMapDoc_holds _, hm⟩ .nil))⟩

/-! ### C36 -/

/-- The sum of what successful `Append`s returned. -/
def countOf : List (Res Nat) → Nat
  | [] => 0
  | .ok n :: rs => n + countOf rs
  | .error _ :: rs => countOf rs

theorem MSane.each {c : MCfg} {cs : Codecs} {ks : List MCall} {s s' : MState} {rs : List (Res Nat)} (hs : MSane c s)
    (h : appendEach c cs ks s = (rs, s')) : MSane c s' ∧ s'.finished = s.finished ∧
      s'.length = s.length + countOf rs := by
  induction ks generalizing s rs with
  | nil => cases h; exact ⟨hs, rfl, rfl⟩
  | cons k ks ih =>
    rw [appendEach] at h
    cases h1 : mergeAppend c cs k.extra k.cap k.doc s with
    | mk r s1 =>
    rw [h1] at h
    dsimp only at h
    cases h2 : appendEach c cs ks s1 with
    | mk rs2 s2 =>
    rw [h2] at h
    cases h
    obtain ⟨i1, i2, i3, i4, i5⟩ := hs.append h1
    obtain ⟨j1, j2, j3⟩ := ih i1 h2
    refine ⟨j1, j2.trans i2, ?_⟩
    cases r with
    | ok n => rw [j3, i4 n rfl, countOf, Nat.add_assoc]
    | error e => rw [j3, (i5 e rfl).1, countOf]

theorem appendEach_init {c : MCfg} {s s0 : MState} (h : initMerger c s = .ok s0) (cs : Codecs) (k : MCall)
    (ks : List MCall) : appendEach c cs (k :: ks) s = appendEach c cs (k :: ks) s0 := by
  rw [appendEach, appendEach, mergeAppend_init h]

theorem appendEach_fail {c : MCfg} {s : MState} {e : Exn} (h : initMerger c s = .error e) (cs : Codecs)
    (ks : List MCall) : (appendEach c cs ks s).2 = s ∧ countOf (appendEach c cs ks s).1 = 0 := by
  induction ks with
  | nil => exact ⟨rfl, rfl⟩
  | cons k ks ih =>
    have : mergeAppend c cs k.extra k.cap k.doc s = (.error e, s) := by
      unfold mergeAppend; rw [h]
    rw [appendEach, this]
    exact ih

/-- The state `Finish` works on, after any row of `Append`s. -/
theorem each_sane {c : MCfg} {cs : Codecs} {ks : List MCall} {s s' : MState} {rs : List (Res Nat)} {slack : Bytes}
    {r : Res Bytes} (h : appendEach c cs ks {} = (rs, s)) (hf : mergeFinish c cs slack s = (r, s')) :
    (∃ e, initMerger c {} = .error e ∧ r = .error e) ∨
    ∃ s0, MSane c s0 ∧ s0.finished = false ∧ s0.length = countOf rs ∧ mergeFinish c cs slack s0 = (r, s') := by
  cases h0 : initMerger c {} with
  | error e =>
    left
    have := appendEach_fail h0 cs ks
    rw [h] at this
    obtain ⟨rfl, -⟩ := this
    unfold mergeFinish at hf
    rw [h0] at hf
    cases hf
    exact ⟨e, rfl, rfl⟩
  | ok s0 =>
    right
    have hs := initMerger_sane h0
    have hg := initMerger_new h0
    cases ks with
    | nil =>
      cases h
      rw [mergeFinish_init h0] at hf
      exact ⟨s0, hs, hg.open_, hg.length, hf⟩
    | cons k ks =>
      rw [appendEach_init h0] at h
      obtain ⟨h1, h2, h3⟩ := hs.each h
      exact ⟨s, h1, h2.trans hg.open_, by rw [h3, hg.length]; simp, hf⟩

/-- C36, for every row of `Append`s (successful or not) without compression: the merged document consists of
the header, the tags of the array, and then, as a varint, the sum of the numbers the successful `Append`s
returned.  (That these numbers are the numbers of elements added is part of C35_partial and C40_partial.) -/
theorem C36_partial (c : MCfg) (cs : Codecs) (calls : List MCall) (rs : List (Res Nat)) (s s' : MState)
    (slack doc : Bytes) (hv : c.version ≠ 1) (hc : c.compression = none)
    (happ : appendEach c cs calls {} = (rs, s)) (hfin : mergeFinish c cs slack s = (.ok doc, s')) :
    ∃ tags, topTags c.topLevel = some tags ∧
      magicOf c.ver ++ [UInt8.ofNat c.ver, 0] ++ tags.take 1 <+: doc ∧
      varint (countOf rs) <+: doc.drop (6 + tags.length) := by
  rcases each_sane happ hfin with ⟨e, -, h⟩ | ⟨s0, h1, h2, h3, h4⟩
  · cases h
  obtain ⟨tags, t1, t2, t3⟩ := h1.tags
  have hp := mergeFinish_raw h1.inited h2 h4 (fun b _ => by unfold mergeCompresses; rw [hc]; split <;> rfl)
  obtain ⟨hver, hhead⟩ := ver_magic h1.ver hv tags
  have htl : 1 ≤ tags.length := by
    cases htop : c.topLevel with
    | invalid => rw [htop] at t1; cases t1
    | array => rw [htop] at t1; cases t1; decide
    | arrayRef => rw [htop] at t1; cases t1; decide
  have hlen := h1.len
  unfold putLength at hp
  rw [h3] at hp
  split at hp
  · cases hp
    refine ⟨tags, t1, ?_, ?_⟩
    · have e : magicOf c.ver ++ [UInt8.ofNat c.ver, 0] ++ tags.take 1 = s0.buf.take 7 := by
        rw [t3, hhead]
        have := magicOf_length c.ver
        simp [List.take_append, this]
        rw [List.take_of_length_le (by omega)]
      rw [e, List.append_assoc]
      refine List.IsPrefix.trans ?_ (List.prefix_append _ _)
      rw [t2]
      exact List.take_prefix_take_left (by omega)
    · rw [← t2, List.append_assoc, List.drop_append_of_le_length (by simp; omega)]
      rw [List.drop_eq_nil_of_le (by simp; omega), List.nil_append]
      exact List.prefix_append _ _
  · cases hp

/-- C36 as it stands, for one document: if `Append` and `Finish` succeed then the result has as many elements
as `Append` said. -/
def CountsAdded : Prop := ∀ (c : MCfg) (cs : Codecs) (call : MCall) (n : Nat) (s s' : MState) (slack doc : Bytes),
  appendAll c cs [call] {} = some ([n], s) → mergeFinish c cs slack s = (.ok doc, s') →
  ∃ h p, unmarshal {} cs doc = .ok (h, .slice p n)

def unmarshals (cs : Codecs) (doc : Bytes) : Bool :=
  match unmarshal {} cs doc with
  | .ok _ => true
  | .error _ => false

/-- C36 fails for a document without a body: `Append` adds nothing and returns 1; the result of `Finish` is an
array of length 1 without an element. -/
theorem C36_fails : ¬ CountsAdded := by
  intro hp
  have e1 : (mergeRun {} noCodecs [⟨rawDoc [], [], 0⟩] []).map (fun r => (r.counts, unmarshals noCodecs r.doc)) =
      some ([1], false) := by decide +kernel
  obtain ⟨r, hr, h3, h4⟩ := mergeRun_map e1
  obtain ⟨h1, h2⟩ := mergeRun_some hr
  rw [h3] at h1
  obtain ⟨h, p, hu⟩ := hp {} noCodecs _ 1 _ _ [] _ h1 h2
  unfold unmarshals at h4
  rw [hu] at h4
  cases h4

/-- An example for C36_partial: a document, a byte that is no document, and another document. -/
example : (appendEach {} noCodecs [⟨sampleMapDoc, [], 0⟩, ⟨[7], [], 0⟩, ⟨sampleStrDoc, [], 0⟩] {}).1.map
    (fun r => match r with | .ok n => some n | .error _ => none) = [some 1, none, some 1] := by decide +kernel

/-! ### C40 -/

/-- C40, for documents as in C35_partial, of at least two bytes and without padding at the beginning: the
merged document is the array of all elements of the documents that are arrays (or references to
arrays, if that is the top level element) and of the other documents, in order; `Append` returns the
number of elements the document contributed. -/
theorem C40_partial (c : MCfg) (cs : Codecs) (calls : List MCall) (ts : List Tree) (ns : List Nat) (s s' : MState)
    (slack doc : Bytes) (hv : c.version ≠ 1) (hc : c.compression = none) (hdd : c.dedupeStrings = false)
    (hkf : c.keepFlat = true)
    (hdocs : Each (fun k t => DocHoldsBare cs k.doc t ∧ Movable t) calls ts)
    (happ : appendAll c cs calls {} = some (ns, s)) (hfin : mergeFinish c cs slack s = (.ok doc, s'))
    (hn : (ts.map (flatten c.topLevel)).flatten.length ≤ maxSize) (hsz : doc.length < 2 ^ 63) :
    ns = ts.map (fun t => (flatten c.topLevel t).length) ∧
    ∃ body j, IsDoc doc c.ver 0 [0] [] body ∧
      Denotes wrtDialect (0 :: body) 1 (topTree c.topLevel (ts.map (flatten c.topLevel)).flatten) j ∧
      ∀ dcfg : DCfg, (∀ t ∈ (ts.map (flatten c.topLevel)).flatten, Supported dcfg.view t) →
        ∃ h v, unmarshal dcfg cs doc = .ok (h, v) ∧
          Shows dcfg.view h v (topTree c.topLevel (ts.map (flatten c.topLevel)).flatten) := by
  have := merged_doc hv hc hdd (hdocs.singles (flatten c.topLevel) fun k t h => ⟨h.1.adds hkf, by
    intro u hu
    have hm := h.2
    unfold flatten at hu
    split at hu
    · cases hm with | ref hm => cases hm with | arr hm => exact hm u hu
    · cases hm with | arr hm => exact hm u hu
    · rw [List.mem_singleton.1 hu]; exact hm⟩) happ hfin hn hsz
  rw [List.map_map] at this
  exact this

/-- C40 as it stands, for one document, as far as lengths are concerned: an array document of `n` elements makes
a merged array of `n` elements. -/
def FlatKept : Prop := ∀ (c : MCfg) (cs : Codecs) (call : MCall) (h : Heap) (p n : Nat),
  c.keepFlat = true → unmarshal {} cs call.doc = .ok (h, .slice p n) →
  ∃ ns s s' doc h' p', appendAll c cs [call] {} = some (ns, s) ∧ mergeFinish c cs [] s = (.ok doc, s') ∧
    unmarshal {} cs doc = .ok (h', .slice p' n)

def sliceLen : Res (Heap × Val) → Option Nat
  | .ok (_, .slice _ n) => some n
  | _ => none

theorem sliceLen_some {r : Res (Heap × Val)} {n : Nat} (h : sliceLen r = some n) : ∃ h p, r = .ok (h, .slice p n) := by
  unfold sliceLen at h
  split at h
  · cases h; exact ⟨_, _, rfl⟩
  · cases h

/-- C40 fails if padding precedes the array: it is added as one element. -/
theorem C40_fails : ¬ FlatKept := by
  intro hp
  have e0 : sliceLen (unmarshal {} noCodecs (rawDoc [0x3f, 0x42, 1, 2])) = some 2 := by decide +kernel
  obtain ⟨h, p, hu⟩ := sliceLen_some e0
  obtain ⟨ns, s, s', doc, h', p', h1, h2, h3⟩ :=
    hp { keepFlat := true } noCodecs ⟨rawDoc [0x3f, 0x42, 1, 2], [], 0⟩ h p 2 rfl hu
  have e1 : (mergeRun { keepFlat := true } noCodecs [⟨rawDoc [0x3f, 0x42, 1, 2], [], 0⟩] []).map
      (fun r => (sliceLen (unmarshal {} noCodecs r.doc), ())) = some (some 1, ()) := by decide +kernel
  obtain ⟨r, hr, h4, -⟩ := mergeRun_map e1
  obtain ⟨k1, k2⟩ := mergeRun_some hr
  rw [h1] at k1
  cases k1
  rw [h2] at k2
  cases k2
  rw [h3] at h4
  cases h4

/-- With KeepFlat, `Append` of a document whose body is one byte crashes: `expectedElements` looks at the second
byte without asking whether there is one. -/
theorem C40_crash : ∃ m, (mergeAppend { keepFlat := true } noCodecs [] 0 (rawDoc [5]) {}).1 = .error (.crash m) := by
  have : (match (mergeAppend { keepFlat := true } noCodecs [] 0 (rawDoc [5]) {}).1 with
    | .error (.crash _) => true | _ => false) = true := by decide +kernel
  split at this
  · next m h => exact ⟨m, h⟩
  · cases this

/-- An example for C40_partial: [1, 2], then "hi", then [7]. -/
def flatCalls : List MCall :=
  [⟨rawDoc [0x42, 1, 2], [], 0⟩, ⟨sampleStrDoc, [], 0⟩, ⟨rawDoc [0x28, 0x2b, 1, 7], [], 0⟩]

example : (mergeRun { keepFlat := true } noCodecs flatCalls []).map (fun r => (r.counts, r.doc)) = some ([2, 1, 1],
    rawDoc ([0x28, 0x2b, 4, 0x3f, 0x3f, 0x3f, 0x3f] ++ [1, 2] ++ [0x27, 2, 0x68, 0x69] ++ [7])) := by decide +kernel

end Sereal

import Verif.Proof.MergeG
import Verif.Proof.ApiDoc
import Verif.Spec.Merged
/-
From `Append` to `Finish`.
-/
namespace Sereal

theorem G.items_append {d : Dialect} {buf : Bytes} {ts us : List Tree} {n m i j k : Nat} {T T1 T2 : Seen}
    (h : G d buf false (.items n) i T (.trees ts) j T1) (h' : G d buf false (.items m) j T1 (.trees us) k T2) :
    G d buf false (.items (n + m)) i T (.trees (ts ++ us)) k T2 := by
  induction ts generalizing n i T with
  | nil => cases h; rw [Nat.zero_add]; exact h'
  | cons t ts ih =>
    cases h with
    | @itemsCons _ n _ _ _ _ _ _ _ _ h1 h2 =>
      rw [show n + 1 + m = n + m + 1 by omega]
      exact .itemsCons h1 (ih h2)

theorem G.items_length {d : Dialect} {buf : Bytes} {cd : Bool} {ts : List Tree} {n i j : Nat} {T T1 : Seen}
    (h : G d buf cd (.items n) i T (.trees ts) j T1) : n = ts.length := by
  induction ts generalizing n i T with
  | nil => cases h; rfl
  | cons t ts ih =>
    cases h with
    | itemsCons h1 h2 => rw [ih h2]; rfl

/-- Padding in front of an item. -/
theorem TagAt.pads {F : Bytes} {i p k : Nat} {b : UInt8} (h : TagAt F p k b) (hip : i ≤ p)
    (hp : ∀ x, i ≤ x → x < p → ∃ q, F[x]? = some q ∧ q.toNat % 128 = 0x3f) : TagAt F i k b :=
  ⟨by have := h.le; omega, fun x h1 h2 => by
    by_cases hx : x < p
    · exact hp x h1 hx
    · exact h.2.1 x (by omega) h2, h.2.2⟩

theorem G.item_pads {d : Dialect} {F : Bytes} {cd : Bool} {t : Tree} {i p j : Nat} {T T1 : Seen}
    (h : G d F cd .item p T (.tree t) j T1) (hip : i ≤ p)
    (hp : ∀ x, i ≤ x → x < p → ∃ q, F[x]? = some q ∧ q.toNat % 128 = 0x3f) :
    G d F cd .item i T (.tree t) j T1 := by
  cases h with
  | plain ht hb h => exact .plain (ht.pads hip hp) hb h
  | tracked ht hb h => exact .tracked (ht.pads hip hp) hb h

theorem G.items_pads {d : Dialect} {F : Bytes} {cd : Bool} {ts : List Tree} {n i p j : Nat} {T T1 : Seen}
    (h : G d F cd (.items n) p T (.trees ts) j T1) (hip : i ≤ p)
    (hp : ∀ x, i ≤ x → x < p → ∃ q, F[x]? = some q ∧ q.toNat % 128 = 0x3f) :
    ∃ j, G d F cd (.items n) i T (.trees ts) j T1 := by
  cases h with
  | itemsNil => exact ⟨_, .itemsNil⟩
  | itemsCons h1 h2 => exact ⟨_, .itemsCons (h1.item_pads hip hp) h2⟩

/-- The bytes before the array length. -/
def mergeHead (c : MCfg) (tags : Bytes) : Bytes :=
  (if c.ver < 3 then putUint32 magicHeaderBytes else putUint32 magicHeaderBytesHighBit) ++
    [UInt8.ofNat c.ver, 0] ++ tags

theorem mergeHead_length (c : MCfg) (tags : Bytes) : (mergeHead c tags).length = 6 + tags.length := by
  unfold mergeHead
  split <;> simp [putUint32] <;> omega

/-- Five padding bytes, room for the array length. -/
def fivePads : Bytes := List.replicate 5 typePAD

/-- Between calls: `ts` has been merged so far. -/
structure MGood (c : MCfg) (s : MState) (ts : List Tree) : Prop where
  ver : c.ver ≤ 3
  head : ∃ tags items, topTags c.topLevel = some tags ∧ s.lenOffset = 6 + tags.length ∧
    s.buf = mergeHead c tags ++ fivePads ++ items
  inited : s.inited = true
  open_ : s.finished = false
  length : s.length = ts.length
  str : ∀ k o, mapLookup k s.strTable = some o → LitAt wrtDialect s.lenOffset s.buf o k
  obj : ∀ k o, mapLookup k s.objTable = some o → LitAt wrtDialect s.lenOffset s.buf o k
  items : ∀ F, Agr s.lenOffset F s.buf → ∀ T, ∃ T', G wrtDialect F false (.items ts.length) s.lenOffset T
    (.trees ts) (s.buf.length - 5) T'

theorem MGood.len {c : MCfg} {s : MState} {ts : List Tree} (h : MGood c s ts) : s.lenOffset + 5 ≤ s.buf.length := by
  obtain ⟨tags, items, -, h1, h2⟩ := h.head
  rw [h1, h2]
  simp [mergeHead_length, fivePads]

theorem initMerger_new {c : MCfg} {s : MState} (h : initMerger c {} = .ok s) : MGood c s [] := by
  unfold initMerger at h
  dsimp only at h
  rw [if_neg (by decide)] at h
  split at h
  · cases h
  · next hv =>
    cases ht : topTags c.topLevel with
    | none => rw [ht] at h; cases h
    | some tags =>
      rw [ht] at h
      cases h
      have hl : (mergeHead c tags ++ fivePads).length - 5 = 6 + tags.length := by
        simp [mergeHead_length, fivePads]
      refine ⟨by omega, ⟨tags, [], ht, mergeHead_length c tags, ?_⟩, rfl, rfl, rfl, ?_, ?_, ?_⟩
      · show mergeHead c tags ++ fivePads = _
        rw [List.append_nil]
      · intro k o h; cases h
      · intro k o h; cases h
      · intro F hF T
        refine ⟨T, ?_⟩
        show G wrtDialect F false (.items 0) (mergeHead c tags).length T (.trees [])
          ((mergeHead c tags ++ fivePads).length - 5) T
        rw [hl, mergeHead_length]
        exact .itemsNil

theorem initMerger_inited {c : MCfg} {s : MState} (h : s.inited = true) : initMerger c s = .ok s := by
  unfold initMerger
  rw [if_pos h]

theorem wrt_mergeable : Mergeable wrtDialect := ⟨rfl, rfl⟩

/-- The items of one document are added. -/
theorem MGood.append {c : MCfg} {s s' : MState} {ts us : List Tree} (h : MGood c s ts) (hdd : c.dedupeStrings = false)
    {body extra : Bytes} {cap : Nat} {keys : List Nat} {r : Unit} (hm : mergeItems c body extra cap keys s = (.ok r, s'))
    {n off : Nat} (he : expectedElements c body = .ok ((n : Int), off)) {y : UInt8} {T T' : Seen} {j : Nat}
    (hg : G wrtDialect (y :: body) false (.items n) (off + 1) T (.trees us) j T')
    (hmv : ∀ t ∈ us, Movable t) (hlen : body.length + 1 < 2 ^ 31) (hl' : s'.buf.length < 2 ^ 63) :
    MGood c s' (ts ++ us) ∧ s'.length = s.length + us.length := by
  unfold mergeItems at hm
  rw [he] at hm
  dsimp only at hm
  split at hm
  · cases hm
  · cases hml : mergeLoop c body extra cap (body.length + 1)
        { didx := off, mbuf := s.buf, old := s.buf, stack := [(n : Int).toNat], trackIdxs := keys,
          trackTable := [], strTable := s.strTable, objTable := s.objTable } with
    | mk r' l =>
    rw [hml] at hm
    cases r' with
    | error e => cases hm
    | ok r' =>
    simp only [Prod.mk.injEq, true_and] at hm
    obtain ⟨-, rfl⟩ := hm
    have hruns : Runs c body extra cap
        { didx := off, mbuf := s.buf, old := s.buf, stack := [n], trackIdxs := keys,
          trackTable := [], strTable := s.strTable, objTable := s.objTable } { l with stack := [] } :=
      ⟨_, l, hml, rfl⟩
    let E : MEnv := ⟨c, body, extra, cap, { l with stack := [] }, wrtDialect, s.lenOffset, y⟩
    have hE : E.Ok := ⟨wrt_mergeable, hl', hdd, hlen⟩
    obtain ⟨s1, hw, hF1⟩ := G.carried hE hg rfl hmv _ [] ⟨hruns, rfl, rfl,
      ⟨h.len, h.str, h.obj, fun o p hop => by cases hop⟩, List.prefix_refl _⟩
    have hdone := hw.runs.done (by rw [hw.stack]; rfl)
    have e1 : l.mbuf = s1.mbuf := by have := congrArg LState.mbuf hdone; exact this
    have e2 : l.strTable = s1.strTable := by have := congrArg LState.strTable hdone; exact this
    have e3 : l.objTable = s1.objTable := by have := congrArg LState.objTable hdone; exact this
    have hpre : s.buf <+: s1.mbuf := hw.pre
    have hn := hg.items_length
    refine ⟨⟨h.ver, ?_, h.inited, h.open_, ?_, ?_, ?_, ?_⟩, ?_⟩
    · obtain ⟨tags, items, h1, h2, h3⟩ := h.head
      obtain ⟨z, hz⟩ := hpre
      refine ⟨tags, items ++ z, h1, h2, ?_⟩
      show l.mbuf = _
      rw [e1, ← hz, h3]
      simp
    · show s.length + (n : Int).toNat = _
      rw [Int.toNat_natCast, h.length, hn, List.length_append]
    · intro k o hk
      show LitAt wrtDialect s.lenOffset l.mbuf o k
      rw [e1]
      refine hw.inv.str k o ?_
      rw [← e2]; exact hk
    · intro k o hk
      show LitAt wrtDialect s.lenOffset l.mbuf o k
      rw [e1]
      refine hw.inv.obj k o ?_
      rw [← e3]; exact hk
    · intro F hF T
      change Agr s.lenOffset F l.mbuf at hF
      rw [e1] at hF
      obtain ⟨T1, g1⟩ := h.items F (hF.mono hpre) T
      obtain ⟨T2, g2⟩ := hF1 F hF T1
      refine ⟨T2, ?_⟩
      show G wrtDialect F false (.items (ts ++ us).length) s.lenOffset T (.trees (ts ++ us)) (l.mbuf.length - 5) T2
      rw [e1, List.length_append, ← hn]
      exact g1.items_append g2
    · show s.length + (n : Int).toNat = _
      rw [Int.toNat_natCast, hn]

/-- The body of a document. -/
theorem HasBody.mergeBody {cs : Codecs} {b body : Bytes} (h : HasBody cs b body) : mergeBody cs b = .ok body := by
  obtain ⟨ver, dt, lf, suf, z, dc, hdoc, -, hdc, hz⟩ := h
  unfold Sereal.mergeBody
  rw [readHeader_head hdoc.head]
  show (if wrapInt (headerSize + (Head.hdr ver dt lf).suffixSize) < 0 ∨ _ then _ else _) = _
  have hb : b.length = (headBytes ver dt lf suf).length + z.length := by rw [hdoc.eq_head]; simp
  rw [hdoc.bodyStart, if_neg (by omega), Int.toNat_natCast]
  have hd : b.drop (headBytes ver dt lf suf).length = z := by rw [hdoc.eq_head]; simp
  show (match documentDecompressor ver dt with | .ok (some c) => _ | _ => _) = _
  rw [hdc, hd]
  cases dc with
  | none => rw [hz]
  | some c => exact hz


/-- `Append` when it succeeds. -/
theorem mergeAppend_ok {c : MCfg} {cs : Codecs} {extra : Bytes} {cap : Nat} {b : Bytes} {s s' : MState} {n : Nat}
    (h : mergeAppend c cs extra cap b s = (.ok n, s')) :
    ∃ s0 body keys r, initMerger c s = .ok s0 ∧ s0.finished = false ∧ mergeBody cs b = .ok body ∧
      mergeItems c body extra cap keys s0 = (.ok r, s') ∧ n = s'.length - s0.length := by
  unfold mergeAppend at h
  cases h0 : initMerger c s with
  | error e => rw [h0] at h; cases h
  | ok s0 =>
  rw [h0] at h
  dsimp only at h
  split at h
  · cases h
  · next hf =>
    cases h1 : mergeBody cs b with
    | error e => rw [h1] at h; cases h
    | ok body =>
    rw [h1] at h
    dsimp only at h
    split at h
    · cases h
    · next keys hk =>
      cases h2 : mergeItems c body extra cap keys s0 with
      | mk r s2 =>
      rw [h2] at h
      cases r with
      | error e => cases h
      | ok r =>
        cases h
        exact ⟨s0, body, keys, r, rfl, by simpa using hf, rfl, h2, rfl⟩

theorem expected_one {c : MCfg} (h : c.keepFlat = false) (b : Bytes) : expectedElements c b = .ok (((1 : Nat) : Int), 0) := by
  unfold expectedElements
  rw [if_neg (by rw [h]; simp)]
  rfl

/-- `Append` of a document holding `t`. -/
theorem MGood.appendDoc {c : MCfg} {s s' : MState} {ts : List Tree} {n : Nat} {t : Tree} (h : MGood c s ts)
    (hdd : c.dedupeStrings = false)
    (hkf : c.keepFlat = false) {cs : Codecs} {extra : Bytes} {cap : Nat} {b : Bytes}
    (ha : mergeAppend c cs extra cap b s = (.ok n, s')) (hb : DocHolds cs b t) (hmv : Movable t)
    (hl' : s'.buf.length < 2 ^ 63) : MGood c s' (ts ++ [t]) ∧ n = 1 := by
  obtain ⟨s0, body, keys, r, h1, h2, h3, h4, h5⟩ := mergeAppend_ok ha
  rw [initMerger_inited h.inited] at h1
  cases h1
  obtain ⟨body', y, j, hb1, hb2, T, hb3⟩ := hb
  rw [hb1.mergeBody] at h3
  cases h3
  obtain ⟨h6, h7⟩ := h.append hdd h4 (expected_one hkf body) (.itemsCons hb3 .itemsNil)
    (by simpa using hmv) hb2 hl'
  exact ⟨h6, by simp at h7; omega⟩

/-- An uncompressed merged document. -/
theorem MGood.layout {c : MCfg} {s : MState} {ts : List Tree} (h : MGood c s ts) (hn : ts.length ≤ maxSize) :
    ∃ tags items ps, topTags c.topLevel = some tags ∧ (∀ q ∈ ps, q = typePAD) ∧
      (varint ts.length).length + ps.length = 5 ∧ s.buf.length = 11 + tags.length + items.length ∧
      putLength s.buf s.lenOffset s.length =
        .ok (mergeHead c tags ++ (varint ts.length ++ ps ++ items)) ∧
      ∀ T, ∃ T' j, G wrtDialect (0 :: (tags ++ (varint ts.length ++ ps ++ items))) false (.items ts.length)
        (1 + tags.length + (varint ts.length).length) T (.trees ts) j T' := by
  obtain ⟨tags, items, h1, h2, h3⟩ := h.head
  have hv5 : (varint ts.length).length ≤ 5 :=
    varint_length_le (by omega) (by simp only [maxSize] at hn; omega)
  have hsl : s.lenOffset + (varint ts.length).length ≤ s.buf.length := by have := h.len; omega
  have hhl := mergeHead_length c tags
  have htake : s.buf.take s.lenOffset = mergeHead c tags := by
    rw [h3, h2, ← hhl, List.append_assoc, List.take_left]
  have hdrop : s.buf.drop (s.lenOffset + (varint ts.length).length) =
      fivePads.drop (varint ts.length).length ++ items := by
    rw [h3, h2, ← hhl, ← List.drop_drop, List.append_assoc, List.drop_left,
      List.drop_append_of_le_length (by simpa [fivePads] using hv5)]
  have hpl : (fivePads.drop (varint ts.length).length).length = 5 - (varint ts.length).length := by
    simp [fivePads]
  have hpad : ∀ q ∈ fivePads.drop (varint ts.length).length, q = typePAD := by
    intro q hq
    exact List.eq_of_mem_replicate (List.mem_of_mem_drop hq)
  have hbl : s.buf.length = 11 + tags.length + items.length := by
    rw [h3]
    simp [hhl, fivePads]
    omega
  generalize fivePads.drop (varint ts.length).length = ps at hdrop hpl hpad
  refine ⟨tags, items, ps, h1, hpad, by omega, hbl, ?_, ?_⟩
  · unfold putLength
    rw [h.length, if_pos hsl, htake, hdrop]
    simp
  · intro T
    have hF : Agr s.lenOffset (0 :: (tags ++ (varint ts.length ++ ps ++ items))) s.buf := by
      intro x b hx hb
      rw [h3, List.getElem?_append_right (by simp [hhl, fivePads]; omega)] at hb
      rw [show (0 :: (tags ++ (varint ts.length ++ ps ++ items)) : Bytes) =
        ([0] ++ tags ++ varint ts.length ++ ps) ++ items by simp,
        List.getElem?_append_right (by simp; omega), ← hb]
      congr 1
      simp [hhl, fivePads]
      omega
    obtain ⟨T', g⟩ := h.items _ hF T
    obtain ⟨j, g'⟩ := g.items_pads (i := 1 + tags.length + (varint ts.length).length) (by omega) (by
      intro x hx1 hx2
      refine ⟨typePAD, ?_, by decide⟩
      rw [show (0 :: (tags ++ (varint ts.length ++ ps ++ items)) : Bytes) =
        ([0] ++ tags ++ varint ts.length) ++ (ps ++ items) by simp,
        List.getElem?_append_right (by simp; omega), List.getElem?_append_left (by simp; omega)]
      have hlt : x - ([0] ++ tags ++ varint ts.length).length < ps.length := by simp; omega
      rw [List.getElem?_eq_getElem hlt]
      exact congrArg some (hpad _ (List.getElem_mem _)))
    exact ⟨T', j, g'⟩

theorem ver_magic {c : MCfg} (hver : c.ver ≤ 3) (hv : c.version ≠ 1) (tags : Bytes) :
    (c.ver = 2 ∨ c.ver = 3) ∧ mergeHead c tags = magicOf c.ver ++ [UInt8.ofNat (c.ver + 16 * 0)] ++ [0] ++ [] ++ tags := by
  have h : c.ver = 2 ∨ c.ver = 3 := by
    unfold MCfg.ver at hver ⊢
    split
    · exact .inr rfl
    · next h0 => rw [if_neg h0] at hver; omega
  refine ⟨h, ?_⟩
  unfold mergeHead
  rcases h with h | h <;> rw [h] <;> rfl

/-- An uncompressed merged document: its layout and what it denotes. -/
theorem MGood.denotes {c : MCfg} {s : MState} {ts : List Tree} (h : MGood c s ts) (hv : c.version ≠ 1)
    (hn : ts.length ≤ maxSize) {doc : Bytes} (hp : putLength s.buf s.lenOffset s.length = .ok doc)
    (hl : doc.length < 2 ^ 63) :
    ∃ body j, IsDoc doc c.ver 0 [0] [] body ∧ (c.ver = 2 ∨ c.ver = 3) ∧ doc.length = 6 + body.length ∧
      Denotes wrtDialect (0 :: body) 1 (topTree c.topLevel ts) j := by
  obtain ⟨tags, items, ps, h1, h2, h3, -, h4, h5⟩ := h.layout hn
  rw [h4] at hp
  cases hp
  obtain ⟨hver, hhead⟩ := ver_magic h.ver hv tags
  have hvb : 1 ≤ c.ver ∧ c.ver ≤ 4 := by omega
  have hvint : ∀ pre : Bytes, Vint wrtDialect (pre ++ (varint ts.length ++ ps ++ items)) pre.length ts.length
      (pre.length + (varint ts.length).length) := by
    intro pre
    refine Vint.of_span ⟨?_, rfl⟩ (by simp only [maxSize] at hn; omega)
    rw [List.drop_left, List.append_assoc]
    exact List.prefix_append _ _
  refine ⟨tags ++ (varint ts.length ++ ps ++ items), ?_⟩
  have hdoc : IsDoc (mergeHead c tags ++ (varint ts.length ++ ps ++ items)) c.ver 0 [0] []
      (tags ++ (varint ts.length ++ ps ++ items)) :=
    ⟨by rw [hhead, List.append_assoc], hvb, by omega, (by show (0 : UInt8).toNat < 128; decide), by decide, rfl, hl⟩
  have hlen : (mergeHead c tags ++ (varint ts.length ++ ps ++ items)).length =
      6 + (tags ++ (varint ts.length ++ ps ++ items)).length := by
    simp [mergeHead_length]; omega
  cases htop : c.topLevel with
  | invalid => rw [htop] at h1; cases h1
  | array =>
    rw [htop] at h1
    cases h1
    obtain ⟨T', j, g⟩ := h5 (fun _ => none)
    have hv1 := hvint [0, typeARRAY]
    exact ⟨j, hdoc, hver, hlen, T', .plainC .array (i := 1) (b := typeARRAY) rfl (by decide) (by decide) rfl
      (.array hv1 hn g)⟩
  | arrayRef =>
    rw [htop] at h1
    cases h1
    obtain ⟨T', j, g⟩ := h5 (fun _ => none)
    have hv1 := hvint [0, typeREFN, typeARRAY]
    exact ⟨j, hdoc, hver, hlen, T', .plainC .refn (i := 1) (b := typeREFN) rfl (by decide) (by decide) rfl
      (.refn (.plainC .array (i := 2) (b := typeARRAY) rfl (by decide) (by decide) rfl (.array hv1 hn g)))⟩

/-- `Finish` without compression. -/
theorem mergeFinish_raw {c : MCfg} {s s' : MState} {cs : Codecs} {slack doc : Bytes} (hi : s.inited = true)
    (ho : s.finished = false) (hf : mergeFinish c cs slack s = (.ok doc, s'))
    (hc : ∀ b, putLength s.buf s.lenOffset s.length = .ok b → mergeCompresses c b = none) :
    putLength s.buf s.lenOffset s.length = .ok doc := by
  unfold mergeFinish at hf
  rw [initMerger_inited hi] at hf
  dsimp only at hf
  rw [ho, if_neg (by decide)] at hf
  cases hp : putLength s.buf s.lenOffset s.length with
  | error e => rw [hp] at hf; cases hf
  | ok b =>
    rw [hp] at hf
    dsimp only at hf
    rw [hc b hp] at hf
    simp only [Prod.mk.injEq, Except.ok.injEq] at hf
    rw [hf.1]

end Sereal

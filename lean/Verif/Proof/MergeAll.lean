import Verif.Proof.MergeTop
import Verif.Proof.Round
/-
Whole histories of a `Merger`: a row of `Append`s, then `Finish`.
-/
namespace Sereal

/-- The document `b` contributes the items `us`. -/
def Adds (c : MCfg) (cs : Codecs) (b : Bytes) (us : List Tree) : Prop :=
  ∃ body y n off T T' j, HasBody cs b body ∧ body.length + 1 < 2 ^ 31 ∧
    expectedElements c body = .ok (((n : Nat) : Int), off) ∧
    G wrtDialect (y :: body) false (.items n) (off + 1) T (.trees us) j T'

theorem DocHolds.adds {c : MCfg} (hkf : c.keepFlat = false) {cs : Codecs} {b : Bytes} {t : Tree}
    (h : DocHolds cs b t) : Adds c cs b [t] := by
  obtain ⟨body, y, j, h1, h2, T, h3⟩ := h
  exact ⟨body, y, 1, 0, _, _, _, h1, h2, expected_one hkf body, .itemsCons h3 .itemsNil⟩

theorem MGood.adds {c : MCfg} {s s' : MState} {ts us : List Tree} {n : Nat} (h : MGood c s ts)
    (hdd : c.dedupeStrings = false) {cs : Codecs} {extra : Bytes} {cap : Nat} {b : Bytes}
    (ha : mergeAppend c cs extra cap b s = (.ok n, s')) (hb : Adds c cs b us) (hmv : ∀ t ∈ us, Movable t)
    (hl' : s'.buf.length < 2 ^ 63) : MGood c s' (ts ++ us) ∧ n = us.length := by
  obtain ⟨s0, body, keys, r, h1, h2, h3, h4, h5⟩ := mergeAppend_ok ha
  rw [initMerger_inited h.inited] at h1
  cases h1
  obtain ⟨body', y, m, off, T, T', j, hb1, hb2, hb3, hb4⟩ := hb
  rw [hb1.mergeBody] at h3
  cases h3
  obtain ⟨h6, h7⟩ := h.append hdd h4 hb3 hb4 hmv hb2 hl'
  exact ⟨h6, by omega⟩

/-! ### Starting a merger -/

theorem initMerger_idem {c : MCfg} {s s0 : MState} (h : initMerger c s = .ok s0) : s0.inited = true := by
  unfold initMerger at h
  split at h
  · cases h; assumption
  · split at h
    · cases h
    · dsimp only at h
      split at h
      · cases h
      · cases h; rfl

theorem mergeAppend_init {c : MCfg} {s s0 : MState} (h : initMerger c s = .ok s0) (cs : Codecs) (extra : Bytes)
    (cap : Nat) (b : Bytes) : mergeAppend c cs extra cap b s = mergeAppend c cs extra cap b s0 := by
  unfold mergeAppend
  rw [h, initMerger_inited (initMerger_idem h)]

theorem mergeFinish_init {c : MCfg} {s s0 : MState} (h : initMerger c s = .ok s0) (cs : Codecs) (slack : Bytes) :
    mergeFinish c cs slack s = mergeFinish c cs slack s0 := by
  unfold mergeFinish
  rw [h, initMerger_inited (initMerger_idem h)]

theorem appendAll_init {c : MCfg} {s s0 : MState} (h : initMerger c s = .ok s0) (cs : Codecs) (k : MCall)
    (ks : List MCall) : appendAll c cs (k :: ks) s = appendAll c cs (k :: ks) s0 := by
  rw [appendAll, appendAll, mergeAppend_init h]

/-! ### The buffer only grows -/

theorem mergeItems_len {c : MCfg} {body extra : Bytes} {cap : Nat} {keys : List Nat} {s s' : MState} {r : Unit}
    (h : mergeItems c body extra cap keys s = (.ok r, s')) : s.buf.length ≤ s'.buf.length := by
  unfold mergeItems at h
  split at h
  · cases h
  · split at h
    · cases h
    · split at h
      · next l hl => cases h; exact mergeLoop_len _ _ _ hl
      · cases h

theorem mergeAppend_len {c : MCfg} {cs : Codecs} {extra : Bytes} {cap : Nat} {b : Bytes} {s s' : MState} {n : Nat}
    (hi : s.inited = true) (h : mergeAppend c cs extra cap b s = (.ok n, s')) : s.buf.length ≤ s'.buf.length := by
  obtain ⟨s0, body, keys, r, h1, h2, h3, h4, h5⟩ := mergeAppend_ok h
  rw [initMerger_inited hi] at h1
  cases h1
  exact mergeItems_len h4

theorem mergeItems_inited {c : MCfg} {body extra : Bytes} {cap : Nat} {keys : List Nat} {s s' : MState} {r : Res Unit}
    (h : mergeItems c body extra cap keys s = (r, s')) : s'.inited = s.inited ∧ s'.finished = s.finished ∧
      s'.lenOffset = s.lenOffset := by
  unfold mergeItems at h
  split at h
  · cases h; exact ⟨rfl, rfl, rfl⟩
  · split at h
    · cases h; exact ⟨rfl, rfl, rfl⟩
    · split at h <;> cases h <;> exact ⟨rfl, rfl, rfl⟩

theorem mergeAppend_inited {c : MCfg} {cs : Codecs} {extra : Bytes} {cap : Nat} {b : Bytes} {s s' : MState} {n : Nat}
    (h : mergeAppend c cs extra cap b s = (.ok n, s')) : s'.inited = true := by
  obtain ⟨s0, body, keys, r, h1, h2, h3, h4, h5⟩ := mergeAppend_ok h
  rw [(mergeItems_inited h4).1, initMerger_idem h1]

theorem appendAll_len {c : MCfg} {cs : Codecs} {ks : List MCall} {s s' : MState} {ns : List Nat}
    (hi : s.inited = true) (h : appendAll c cs ks s = some (ns, s')) : s.buf.length ≤ s'.buf.length := by
  induction ks generalizing s ns with
  | nil => cases h; exact Nat.le_refl _
  | cons k ks ih =>
    rw [appendAll] at h
    split at h
    · next n s1 h1 =>
      cases h2 : appendAll c cs ks s1 with
      | none => rw [h2] at h; cases h
      | some r =>
        rw [h2] at h
        cases h
        exact Nat.le_trans (mergeAppend_len hi h1) (ih (mergeAppend_inited h1) h2)
    · cases h

/-- The elements of all documents, in order. -/
theorem MGood.all {c : MCfg} (hdd : c.dedupeStrings = false) {cs : Codecs} {ks : List MCall} {uss : List (List Tree)}
    (hh : Each (fun k us => Adds c cs k.doc us ∧ ∀ t ∈ us, Movable t) ks uss)
    {s s' : MState} {ts : List Tree} {ns : List Nat} (hg : MGood c s ts)
    (h : appendAll c cs ks s = some (ns, s')) (hl' : s'.buf.length < 2 ^ 63) :
    MGood c s' (ts ++ uss.flatten) ∧ ns = uss.map List.length := by
  induction hh generalizing s ts ns with
  | nil => cases h; simpa using hg
  | @cons k us ks uss hk _ ih =>
    rw [appendAll] at h
    split at h
    · next n s1 h1 =>
      cases h2 : appendAll c cs ks s1 with
      | none => rw [h2] at h; cases h
      | some r =>
        rw [h2] at h
        cases h
        have hle := appendAll_len (mergeAppend_inited h1) h2
        obtain ⟨h3, h4⟩ := hg.adds hdd h1 hk.1 hk.2 (by omega)
        obtain ⟨h5, h6⟩ := ih h3 h2
        subst h4
        refine ⟨by simpa using h5, by simp [h6]⟩
    · cases h

/-- The merger after a row of `Append`s, in the situation `Finish` finds. -/
theorem merged_good {c : MCfg} (hdd : c.dedupeStrings = false) {cs : Codecs} {ks : List MCall}
    {uss : List (List Tree)}
    (hh : Each (fun k us => Adds c cs k.doc us ∧ ∀ t ∈ us, Movable t) ks uss)
    {s s' : MState} {ns : List Nat} (h : appendAll c cs ks {} = some (ns, s)) {slack doc : Bytes}
    (hf : mergeFinish c cs slack s = (.ok doc, s')) (hl : s.buf.length < 2 ^ 63) :
    ∃ s0, MGood c s0 uss.flatten ∧ mergeFinish c cs slack s0 = (.ok doc, s') ∧ ns = uss.map List.length ∧
      (s0 = s ∨ ks = []) := by
  cases ks with
  | nil =>
    cases hh
    cases h
    cases h0 : initMerger c {} with
    | error e => unfold mergeFinish at hf; rw [h0] at hf; cases hf
    | ok s0 =>
      rw [mergeFinish_init h0] at hf
      exact ⟨s0, initMerger_new h0, hf, rfl, .inr rfl⟩
  | cons k ks =>
    cases h0 : initMerger c {} with
    | error e =>
      rw [appendAll] at h
      unfold mergeAppend at h
      rw [h0] at h
      cases h
    | ok s0 =>
      rw [appendAll_init h0] at h
      obtain ⟨h1, h2⟩ := (initMerger_new h0).all hdd hh h hl
      exact ⟨s, by simpa using h1, hf, h2, .inl rfl⟩

theorem putLength_length {buf doc : Bytes} {o n : Nat} (h : putLength buf o n = .ok doc) :
    doc.length = buf.length := by
  unfold putLength at h
  split at h
  · cases h; simp; omega
  · cases h

/-- `Unmarshal` of an uncompressed document of version 2 or 3. -/
theorem raw_unmarshal {doc body : Bytes} {ver : Nat} (hdoc : IsDoc doc ver 0 [0] [] body) (hv : ver ≠ 1)
    {t : Tree} {j : Nat} (hd : Denotes wrtDialect (0 :: body) 1 t j) (cs : Codecs) (dcfg : DCfg)
    (hs : Supported dcfg.view t) :
    ∃ h v, unmarshal dcfg cs doc = .ok (h, v) ∧ Shows dcfg.view h v t := by
  obtain ⟨T, g⟩ := hd
  have hib : itemBuf ver (headBytes ver 0 [0] []) body = (0 :: body, 1) := by
    unfold itemBuf headBytes
    rw [if_neg hv]
    have := magicOf_length ver
    simp [this, List.drop_append]
  have hb := bodyInput_raw (cs := cs) hdoc
  have hl := hdoc.buf_lt
  rw [hib] at hb hl
  exact unmarshal_complete hb hl ⟨T, g.wrt_core.core_go⟩ hs

/-! ### Plain data can be merged -/

theorem Movable.refWrap {b : Bool} {t : Tree} (h : Movable t) : Movable (refWrap b t) := by
  unfold Sereal.refWrap; split
  · exact .ref h
  · exact h

theorem Plain.movable {n : Nat} {inp : Heap} {v : Val} (hp : Plain n inp v) {cfg : ECfg} {rn : Bool}
    {t : Tree} (hw : Written cfg inp rn v t) : Movable t := by
  induction hp generalizing rn t with
  | nil => cases hw; exact .undef
  | bool => cases hw; exact .bool
  | int => cases hw; exact .int
  | uint => cases hw; exact .int
  | f32 => cases hw; exact .f32
  | f64 => cases hw; exact .f64
  | str h => cases hw; exact .str
  | bin h => cases hw; exact .bin
  | slice hl _ ih =>
    cases hw with
    | @slice _ _ ts hW =>
      refine .refWrap (.arr fun t' ht' => ?_)
      obtain ⟨i, hi, rfl⟩ := List.getElem_of_mem ht'
      exact ih i hi (hW i _ (by simp))
  | smap hl _ hkl _ ih =>
    cases hw with
    | @smap _ _ kts hperm hW =>
      refine .refWrap (.map fun kv ht' => ?_)
      obtain ⟨v, hv⟩ := mem_of_keys (k := kv.1) (t := kv.2) hperm ht'
      exact ih kv.1 v hv (hW kv.1 kv.2 v ht' hv)

end Sereal

import Verif.Proof.MergeAccepts
import Verif.Proof.MergeAll
import Verif.Proof.MergeSane
/-
`Append` and `Finish` succeed on documents that are rows of tokens.
-/
namespace Sereal

/-- What the loop of `mergeItems` needs of the merger. -/
structure MFit (s : MState) : Prop where
  inited : s.inited = true
  open_ : s.finished = false
  room : s.lenOffset + 5 ≤ s.buf.length
  str : Upto s.buf.length s.strTable
  obj : Upto s.buf.length s.objTable

theorem initMerger_fit {c : MCfg} (hv : c.ver ≤ 3) (ht : c.topLevel ≠ .invalid) :
    ∃ s, initMerger c {} = .ok s ∧ MFit s ∧ s.length = 0 := by
  unfold initMerger
  rw [if_neg (by decide), if_neg (by omega)]
  cases h : topTags c.topLevel with
  | none => cases h1 : c.topLevel <;> rw [h1] at h ht <;> first | cases h; done | exact absurd rfl ht
  | some tags =>
    refine ⟨_, rfl, ⟨rfl, rfl, ?_, ?_, ?_⟩, rfl⟩
    · show _ ≤ List.length (_ ++ List.replicate 5 typePAD); simp; omega
    · intro k o h; cases h
    · intro k o h; cases h

/-- The body of a document to be appended: `n` elements from offset `off` on, and the tokens there. -/
structure Merges (c : MCfg) (body : Bytes) (n off : Nat) : Prop where
  expects : expectedElements c body = .ok ((n : Int), off)
  count : n ≤ maxUint32
  size : body.length < 2 ^ 62
  inside : off ≤ body.length
  head : Scan body 0 [] off []
  toks : ∃ y vs, Toks (y :: body) [] (off + 1) vs (body.length + 1)

theorem MFit.append {c : MCfg} {s : MState} (hs : MFit s) {cs : Codecs} {b body : Bytes} {n off : Nat}
    (hb : mergeBody cs b = .ok body) (h : Merges c body n off) (extra : Bytes) (cap : Nat) :
    ∃ s', mergeAppend c cs extra cap b s = (.ok n, s') ∧ MFit s' ∧ s'.length = s.length + n := by
  obtain ⟨y, vs, ht⟩ := h.toks
  obtain ⟨ks, h1, h2, -, h4, h5⟩ := ht.accepted c extra cap h.size (by omega) (by simp) [] .nil (by simp)
  have hscan : Scan body 0 [] body.length ks := h.head.trans h1
  have hks : ks.filter (off + 1 ≤ ·) = ks := by
    rw [List.filter_eq_self]
    intro x hx
    rcases ht.places.1 x (h4 x hx) with h | h
    · cases h
    · simpa using h
  have hend : ∀ l, Tracked ks (body.length + 1) l → LoopOk c body extra cap l := by
    intro l hl fuel _
    have hat : l.didx = body.length := by have := hl.at_; omega
    refine ⟨l, ?_, hl.bound⟩
    cases fuel with
    | zero => rw [mergeLoop, if_neg (by omega)]
    | succ fuel => rw [mergeLoop, List.getElem?_eq_none (by omega)]
  obtain ⟨f, hf, hfb⟩ := h5 ks h2 (fun x hx => hx) (fun x hx => .inl (h4 x hx)) hend
    { didx := off, mbuf := s.buf, old := s.buf, stack := [((n : Nat) : Int).toNat], trackIdxs := ks,
      trackTable := [], strTable := s.strTable, objTable := s.objTable }
    ⟨rfl, hks.symm, fun k hk hlt => by
        rcases ht.places.1 k (h4 k hk) with h | h
        · cases h
        · omega,
      ⟨by have := hs.room; dsimp only; omega, hs.str, hs.obj, fun o p h => by cases h⟩⟩ (body.length + 1) (by dsimp only; omega)
  have hn := h.count
  have key : mergeItems c body extra cap ks s = (.ok (), { s with
      buf := f.mbuf, length := s.length + n, strTable := f.strTable, objTable := f.objTable }) := by
    unfold mergeItems
    rw [h.expects]
    dsimp only
    rw [if_neg (by
      have : (maxUint32 : Int) ≥ (n : Int) := by exact_mod_cast hn
      omega), hf]
    rfl
  suffices ha : mergeAppend c cs extra cap b s = (.ok n, { s with
      buf := f.mbuf, length := s.length + n, strTable := f.strTable, objTable := f.objTable }) by
    exact ⟨_, ha, ⟨hs.inited, hs.open_, Nat.le_trans hs.room (mergeAppend_len hs.inited ha), hfb.str, hfb.obj⟩, rfl⟩
  unfold mergeAppend
  rw [initMerger_inited hs.inited]
  dsimp only
  rw [if_neg (by simp [hs.open_]), hb]
  dsimp only
  rw [hscan.done]
  dsimp only
  rw [key]
  dsimp only
  rw [Nat.add_sub_cancel_left]

/-- A row of `Append`s. -/
theorem MFit.all {c : MCfg} {cs : Codecs} {ks : List MCall} {ns : List Nat}
    (hh : Each (fun k n => ∃ body off, mergeBody cs k.doc = .ok body ∧ Merges c body n off) ks ns)
    {s : MState} (hs : MFit s) :
    ∃ s', appendAll c cs ks s = some (ns, s') ∧ MFit s' ∧ s'.length = s.length + ns.sum := by
  induction hh generalizing s with
  | nil => exact ⟨s, rfl, hs, by simp⟩
  | cons h _ ih =>
    obtain ⟨body, off, h1, h2⟩ := h
    obtain ⟨s1, a1, a2, a3⟩ := hs.append h1 h2 _ _
    obtain ⟨s2, b1, b2, b3⟩ := ih a2
    refine ⟨s2, ?_, b2, by rw [b3, a3]; simp; omega⟩
    rw [appendAll, a1]
    dsimp only
    rw [b1]
    rfl

/-- The first of them starts the merger. -/
theorem accepted_all {c : MCfg} {cs : Codecs} (hv : c.ver ≤ 3) (ht : c.topLevel ≠ .invalid) {ks : List MCall}
    {ns : List Nat}
    (hh : Each (fun k n => ∃ body off, mergeBody cs k.doc = .ok body ∧ Merges c body n off) ks ns) :
    ∃ s0 s', initMerger c {} = .ok s0 ∧ appendAll c cs ks s0 = some (ns, s') ∧
      (appendAll c cs ks {} = some (ns, s') ∨ ks = []) ∧ MFit s' ∧ s'.length = ns.sum := by
  obtain ⟨s0, h1, h2, h3⟩ := initMerger_fit hv ht
  obtain ⟨s', h4, h5, h6⟩ := MFit.all hh h2
  refine ⟨s0, s', h1, h4, ?_, h5, by omega⟩
  cases ks with
  | nil => exact .inr rfl
  | cons k ks => left; rw [appendAll_init h1]; exact h4

/-- `Finish` without compression. -/
theorem MFit.finish {c : MCfg} {s : MState} (hs : MFit s) (hc : c.compression = none) (hl : s.length < 2 ^ 35)
    (cs : Codecs) (slack : Bytes) : ∃ doc s', mergeFinish c cs slack s = (.ok doc, s') := by
  unfold mergeFinish
  rw [initMerger_inited hs.inited]
  dsimp only
  rw [if_neg (by simp [hs.open_])]
  have := varint_length_le (k := 5) (by omega) hl
  have := hs.room
  unfold putLength
  rw [if_pos (by omega)]
  dsimp only
  rw [show ∀ b, mergeCompresses c b = none from fun b => by unfold mergeCompresses; rw [hc]; split <;> rfl]
  exact ⟨_, _, rfl⟩

end Sereal

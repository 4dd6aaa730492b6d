import Verif.Proof.MergeSafe
import Verif.Props.C35
/-
C68: `Append` and `Finish` never crash the program.  False in several ways; true for documents that are not cut off,
as long as no `Append` has failed.

C69: what `Append` adds depends only on the document.  False for documents that are cut off.
-/
namespace Sereal

/-- The first half of C68, in full: whatever is appended, `Append` returns. -/
def AppendReturns : Prop :=
  ∀ (c : MCfg) (cs : Codecs) (ks : List MCall), ∀ r ∈ (appendEach c cs ks {}).1, Returns r

/-- The second half, in full (for mergers that do not compress): `Finish` returns. -/
def FinishReturns : Prop :=
  ∀ (c : MCfg) (cs : Codecs) (ks : List MCall) (slack : Bytes), c.compression = none →
    Returns (mergeFinish c cs slack (appendEach c cs ks {}).2).1

/-- Not so if an `Append` failed, even for documents that are all right otherwise: this is the first half for documents
that are not cut off. -/
def AppendReturnsAfter : Prop :=
  ∀ (c : MCfg) (cs : Codecs) (ks : List MCall), (∀ k ∈ ks, Appendable c cs k.doc) →
    ∀ r ∈ (appendEach c cs ks {}).1, Returns r

/-- C69, in full: what is appended, and the merger afterwards, do not depend on the memory behind the documents nor on
capacities. -/
def OnlyDocuments : Prop :=
  ∀ (c : MCfg) (cs : Codecs) (ks ks' : List MCall), ks.map MCall.doc = ks'.map MCall.doc →
    appendAll c cs ks {} = appendAll c cs ks' {}

/-! ### What holds -/

/-- C68 for `Append`, if all calls before succeeded.  (Missing: after a failure, see `C68_fails_after`; documents that
are cut off, see `C68_fails` and `C68_fails_marshal`.) -/
theorem C68_append_partial {c : MCfg} {cs : Codecs} {ks : List MCall} {ns : List Nat} {s : MState}
    (h : appendAll c cs ks {} = some (ns, s)) (k : MCall) (hk : Appendable c cs k.doc) :
    Returns (mergeAppend c cs k.extra k.cap k.doc s).1 :=
  MInside?.append (MInside?.all (fun h => by cases h) h) hk _ _

/-- C68 for `Finish`, if all calls before succeeded, there are fewer than 2^35 elements, and the compressor (if any)
returns something that fits into the array of the buffer.  (Missing: see `C68_fails_finish`, `C68_fails_compress`.) -/
theorem C68_finish_partial {c : MCfg} {cs : Codecs} {ks : List MCall} {ns : List Nat} {s : MState}
    (h : appendAll c cs ks {} = some (ns, s)) (hl : s.length < 2 ^ 35) (slack : Bytes)
    (hr : ∀ comp x, c.compression = some comp → Returns (compress cs comp x))
    (hz : ∀ comp x z, c.compression = some comp → compress cs comp x = .ok z → z.length ≤ x.length + slack.length) :
    Returns (mergeFinish c cs slack s).1 :=
  MInside?.finish (MInside?.all (fun h => by cases h) h) hl hr hz

/-- C69 for documents that are not cut off, all calls successful: the counts and the merger are the same. -/
theorem C69_partial {c : MCfg} {cs : Codecs} {ks ks' : List MCall} (hd : ks.map MCall.doc = ks'.map MCall.doc)
    (hc : ∀ k ∈ ks, ∀ body, mergeBody cs k.doc = .ok body → ¬ CutShort body) :
    appendAll c cs ks {} = appendAll c cs ks' {} :=
  appendAll_alike hd hc {}

/-- ... and whether they succeed or not, what each of them returns is the same, and so are the number of elements, the
tables and the length of the buffer. -/
theorem C69_each_partial {c : MCfg} {cs : Codecs} {ks ks' : List MCall} (hd : ks.map MCall.doc = ks'.map MCall.doc)
    (hc : ∀ k ∈ ks, ∀ body, mergeBody cs k.doc = .ok body → ¬ CutShort body) :
    (appendEach c cs ks {}).1 = (appendEach c cs ks' {}).1 ∧
    (appendEach c cs ks {}).2.buf.length = (appendEach c cs ks' {}).2.buf.length ∧
    { (appendEach c cs ks {}).2 with buf := [] } = { (appendEach c cs ks' {}).2 with buf := [] } :=
  let h := (MAlike.refl {}).each hd hc
  ⟨h.1, h.2.len, h.2.same⟩

/-- The document `Finish` returns does not depend on what lies behind the buffer, if compressing does not make anything
longer. -/
theorem C69_finish_partial {c : MCfg} {cs : Codecs} {ks : List MCall} {ns : List Nat} {s : MState}
    (h : appendAll c cs ks {} = some (ns, s))
    (hz : ∀ comp x z, c.compression = some comp → compress cs comp x = .ok z → z.length ≤ x.length)
    (slack slack' : Bytes) : mergeFinish c cs slack s = mergeFinish c cs slack' s :=
  mergeFinish_slack (MInside?.all (fun h => by cases h) h) hz slack slack'

/-! ### What does not -/

/-- A result is a crash. -/
def Res.crashed {α : Type} : Res α → Bool
  | .error (.crash _) => true
  | _ => false

theorem Res.crashed_not {α : Type} {r : Res α} (h : r.crashed = true) : ¬ Returns r := by
  intro hr
  match r, h, hr with
  | .error (.crash m), _, hr => obtain ⟨_, he⟩ := hr _ rfl; cases he

/-- Six bytes: a header that says that five more bytes of header follow. -/
theorem C68_fails : ¬ AppendReturns := by
  intro h
  have e : (appendEach {} noCodecs [⟨[0x3d, 0xf3, 0x72, 0x6c, 3, 5], [], 0⟩] {}).1.map Res.crashed = [true] := by decide +kernel
  cases hl : (appendEach {} noCodecs [⟨[0x3d, 0xf3, 0x72, 0x6c, 3, 5], [], 0⟩] {}).1 with
  | nil => rw [hl] at e; cases e
  | cons r rs =>
    rw [hl] at e
    injection e with e1 _
    exact Res.crashed_not e1 (h _ _ _ r (by rw [hl]; simp))

/-- A FLOAT without its four bytes, OBJECT and REGEXP without what follows them, and with KeepFlat a body of one
byte. -/
theorem C68_fails_short :
    [[0x22], [0x23], [0x24], [0x2c], [0x32], [0x31], [0x31, 0x61, 0x61], [0x61]].map
      (fun body => (appendEach {} noCodecs [⟨rawDoc body, [], 0⟩] {}).1.map Res.crashed) = List.replicate 8 [true] ∧
    (appendEach { keepFlat := true } noCodecs [⟨rawDoc [5], [], 0⟩] {}).1.map Res.crashed = [true] := by
  decide +kernel

/-- The slice of a PerlRegexp with pattern "a" and no flags, 1, and the bytes 1 and 34. -/
def regexpHeap : Heap where
  mem a := match a with
    | 1 => .cell (.regexp [0x61] [])
    | 2 => .cell (.int .int 1)
    | 3 => .cell (.bin [1, 34])
    | _ => .cell .nil
  next := 4

/-- It also crashes on a document `Marshal` writes: REGEXP with empty flags is followed by SHORT_BINARY_0, which
`readString` takes for a string with a varint length, so that the merger is out of step from there on. -/
theorem C68_fails_marshal :
    (marshal {} noCodecs regexpHeap (.slice 1 3)).toOption = some (rawDoc [0x2b, 3, 0x31, 0x61, 0x61, 0x60, 1, 0x62, 1, 0x22]) ∧
    (appendEach {} noCodecs [⟨rawDoc [0x2b, 3, 0x31, 0x61, 0x61, 0x60, 1, 0x62, 1, 0x22], [], 0⟩] {}).1.map Res.crashed =
      [true] := by
  constructor <;> decide +kernel

/-- An array of 2^32 - 1 elements, none of which is there. -/
def bigArr : Bytes := rawDoc [0x28, 0x2b, 0xff, 0xff, 0xff, 0xff, 0xf]

/-- With KeepFlat, nine documents can announce more elements than fit into the five bytes kept for their number. -/
theorem C68_fails_finish : ¬ FinishReturns := by
  intro h
  have e : (mergeFinish { keepFlat := true } noCodecs [] (appendEach { keepFlat := true } noCodecs
      (List.replicate 9 ⟨bigArr, [], 0⟩) {}).2).1.crashed = true := by decide +kernel
  exact Res.crashed_not e (h _ _ _ _ rfl)

/-- A compressor that makes something longer. -/
theorem C68_fails_compress :
    (mergeFinish { compression := some (.zlib 0), threshold := 0 } { noCodecs with zlibEnc := fun _ x => .ok x } [] {}).1.crashed =
      true := by decide +kernel

/-- There is no REGEXP in `x`, and behind the other tags `CutAt` asks about there are enough bytes. -/
def cutFree : Bytes → Bool
  | [] => true
  | b :: x => b.toNat % 128 != 0x31 && (b.toNat % 128 != 0x22 || 4 ≤ x.length) && (b.toNat % 128 != 0x23 || 8 ≤ x.length) &&
      (b.toNat % 128 != 0x24 || 16 ≤ x.length) &&
      (b.toNat % 128 != 0x61 && b.toNat % 128 != 0x2c && b.toNat % 128 != 0x32 || 1 ≤ x.length) && cutFree x

theorem cutFree_whole {x : Bytes} (h : cutFree x = true) : ¬ CutShort x := by
  rintro ⟨p, b, hb, hc⟩
  induction x generalizing p with
  | nil => simp at hb
  | cons a x ih =>
    rw [cutFree] at h
    simp only [Bool.and_eq_true, Bool.or_eq_true, bne_iff_ne, ne_eq, decide_eq_true_eq] at h
    obtain ⟨⟨⟨⟨⟨h1, h2⟩, h3⟩, h4⟩, h5⟩, h6⟩ := h
    cases p with
    | zero =>
      cases hb
      rcases hc with ⟨ht, hl⟩ | ⟨ht, hl⟩ | ⟨ht, hl⟩ | ⟨ht, hl⟩ | ⟨ht, hl⟩ | ⟨ht, -⟩
      all_goals (try rw [List.length_cons] at hl)
      all_goals omega
    | succ p =>
      refine ih h6 p (by simpa using hb) ?_
      rcases hc with ⟨ht, hl⟩ | ⟨ht, hl⟩ | ⟨ht, hl⟩ | ⟨ht, hl⟩ | ⟨ht, hl⟩ | ⟨ht, hl⟩
      · exact .inl ⟨ht, by simp only [List.length_cons] at hl; omega⟩
      · exact .inr (.inl ⟨ht, by simp only [List.length_cons] at hl; omega⟩)
      · exact .inr (.inr (.inl ⟨ht, by simp only [List.length_cons] at hl; omega⟩))
      · exact .inr (.inr (.inr (.inl ⟨ht, by simp only [List.length_cons] at hl; omega⟩)))
      · exact .inr (.inr (.inr (.inr (.inl ⟨ht, by simp only [List.length_cons] at hl; omega⟩))))
      · exact .inr (.inr (.inr (.inr (.inr ⟨ht, hl⟩))))

theorem rawDoc_body (cs : Codecs) {body : Bytes} (hl : body.length < 2 ^ 62) : mergeBody cs (rawDoc body) = .ok body :=
  HasBody.mergeBody ⟨3, 0, [0], [], body, none,
    ⟨rfl, by omega, by omega, (by show (0 : UInt8).toNat < 128; decide), by decide, rfl,
      by unfold rawDoc; simp; omega⟩, by decide, rfl, rfl⟩

theorem rawDoc_appendable (c : MCfg) (cs : Codecs) {body : Bytes} (hl : body.length < 2 ^ 62) (h : cutFree body = true)
    (hk : c.keepFlat = true → 2 ≤ body.length) : Appendable c cs (rawDoc body) where
  size := by unfold rawDoc; simp; omega
  header := by
    intro v rest hv hi
    obtain ⟨rfl, rfl⟩ := IsVarint.head (a := 0) (by decide) hv hi
    exact Nat.zero_le _
  zlib := by
    rintro ⟨t, ht, h3⟩
    cases ht
    exact absurd h3 (by decide)
  whole b hb := by rw [rawDoc_body cs hl] at hb; cases hb; exact cutFree_whole h
  flat hf b hb := by rw [rawDoc_body cs hl] at hb; cases hb; exact hk hf

/-- An array of thirteen numbers, an object of class A, and a COPY with an offset nothing is at. -/
def failObj : Bytes := rawDoc ([0x4f] ++ List.replicate 13 1 ++ [0x2c, 0x61, 0x41, 1, 0x2f, 0])
/-- An object of class A and an ALIAS to it. -/
def objAlias : Bytes := rawDoc [0x42, 0x2c + 128, 0x61, 0x41, 1, 0x29, 2]

/-- The first of these documents is refused; the merger still remembers where in it the class name was, and so crashes on
the second. -/
theorem C68_fails_after : ¬ AppendReturnsAfter := by
  intro h
  have e : (appendEach {} noCodecs [⟨failObj, [], 0⟩, ⟨objAlias, [], 0⟩] {}).1.map Res.crashed = [false, true] := by
    decide +kernel
  have ha : ∀ k ∈ [(⟨failObj, [], 0⟩ : MCall), ⟨objAlias, [], 0⟩], Appendable {} noCodecs k.doc := by
    intro k hk
    rcases List.mem_cons.1 hk with rfl | hk
    · exact rawDoc_appendable _ _ (by decide) (by decide) (by simp)
    · cases List.mem_singleton.1 hk
      exact rawDoc_appendable _ _ (by decide) (by decide) (by simp)
  have hr := h {} noCodecs _ ha
  generalize (appendEach {} noCodecs [⟨failObj, [], 0⟩, ⟨objAlias, [], 0⟩] {}).1 = l at e hr
  cases l with
  | nil => cases e
  | cons r l =>
    injection e with _ e
    cases l with
    | nil => cases e
    | cons r' l =>
      injection e with e _
      exact Res.crashed_not e (hr r' (by simp))

/-- On its own, the second document is appended. -/
example : (appendEach {} noCodecs [⟨objAlias, [], 0⟩] {}).1.map Res.crashed = [false] := by decide +kernel

/-- C69 fails for a FLOAT that is cut off: the four bytes behind the document are taken in. -/
theorem C69_fails : ¬ OnlyDocuments := by
  intro h
  have e : (appendAll {} noCodecs [⟨rawDoc [0x22], [1, 2, 3, 4], 0⟩] {}).map (·.2.buf.drop 13) = some [0x22, 1, 2, 3, 4] := by
    decide +kernel
  have e' : (appendAll {} noCodecs [⟨rawDoc [0x22], [5, 6, 7, 8], 0⟩] {}).map (·.2.buf.drop 13) = some [0x22, 5, 6, 7, 8] := by
    decide +kernel
  rw [h {} noCodecs [⟨rawDoc [0x22], [1, 2, 3, 4], 0⟩] [⟨rawDoc [0x22], [5, 6, 7, 8], 0⟩] rfl, e'] at e
  cases e

/-! ### Examples -/

/-- A document with an array of a FLOAT, a map and an object. -/
def wholeDoc : Bytes := rawDoc [0x43, 0x22, 1, 2, 3, 4, 0x2a, 1, 0x62, 0x6b, 0x6b, 5, 0x2c, 0x61, 0x41, 1]

/-- `C68_append_partial`: the document can be appended twice, with and without KeepFlat, ... -/
example (c : MCfg) (cs : Codecs) : Appendable c cs wholeDoc :=
  rawDoc_appendable _ _ (by decide) (by decide) fun _ => by decide
example : (appendEach {} noCodecs [⟨wholeDoc, [], 0⟩, ⟨wholeDoc, [9], 100⟩] {}).1.map Except.toOption = [some 1, some 1] := by
  decide +kernel

/-- ... and documents it is applied to may be refused, too. -/
example (c : MCfg) (cs : Codecs) : Appendable c cs failObj :=
  rawDoc_appendable _ _ (by decide) (by decide) fun _ => by decide

/-- `C68_finish_partial`. -/
example : (appendAll {} noCodecs [⟨wholeDoc, [], 0⟩, ⟨wholeDoc, [9], 100⟩] {}).map (·.2.length) = some 2 := by
  decide +kernel

/-- `C69_partial`. -/
example (cs : Codecs) : ∀ body, mergeBody cs wholeDoc = .ok body → ¬ CutShort body :=
  (rawDoc_appendable {} _ (by decide) (by decide) (by decide) : Appendable {} cs wholeDoc).whole

end Sereal

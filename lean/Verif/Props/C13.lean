import Verif.Proof.ApiSafe
/-
C13: Unmarshal and UnmarshalHeader never crash the program.

The code violates this on three kinds of documents, all with absurd length fields.
-/
namespace Sereal

/-- The full claim: into nil `interface{}` variables, UnmarshalHeaderBody returns normally, with or
without an error. -/
def NeverCrashes : Prop :=
  ∀ (cfg : DCfg) (cs : Codecs) (b : Bytes),
    (∀ m, unmarshal cfg cs b ≠ .error (.crash m)) ∧ (∀ m, unmarshalHeader cfg cs b ≠ .error (.crash m))

/-- Version 3, header length 0 written as the two-byte varint 80 00. -/
def docLongZero : Bytes := [0x3d, 0xf3, 0x72, 0x6c, 3, 0x80, 0]
/-- Version 3, header length 2^64 - 15. -/
def docNegative : Bytes :=
  [0x3d, 0xf3, 0x72, 0x6c, 3, 0xf1, 0xff, 0xff, 0xff, 0xff, 0xff, 0xff, 0xff, 0xff, 1]
/-- Version 3, zlib, empty header, uncompressed size 2^63, compressed size 2, a zlib stream header. -/
def docHugeZlib : Bytes :=
  [0x3d, 0xf3, 0x72, 0x6c, 0x33, 0, 0x80, 0x80, 0x80, 0x80, 0x80, 0x80, 0x80, 0x80, 0x80, 1, 2, 0x78, 0x9c]

/-- UnmarshalHeader reads past the end of a document whose empty header has a two-byte length. -/
theorem C13_header_fails (cfg : DCfg) (cs : Codecs) :
    unmarshalHeader cfg cs docLongZero = .error (.crash "index out of range") := by
  have h1 : checkHeader docLongZero =
      .ok { doctype := 0, version := 3, suffixStart := 7, suffixSize := 2 } := by decide
  unfold unmarshalHeader unmarshalHeaderBody; rw [unmarshalRaw_eq]; unfold unmarshalRaw'
  rw [h1]
  rfl

/-- Unmarshal slices with a negative bound when the header length overflows. -/
theorem C13_body_fails (cfg : DCfg) (cs : Codecs) :
    unmarshal cfg cs docNegative = .error (.crash "slice bounds out of range") := by
  have h1 : checkHeader docNegative =
      .ok { doctype := 0, version := 3, suffixStart := 15, suffixSize := -5 } := by decide
  unfold unmarshal unmarshalHeaderBody; rw [unmarshalRaw_eq]; unfold unmarshalRaw'
  rw [h1]
  rfl

/-- Unmarshal asks for a buffer of negative capacity when the uncompressed size overflows. -/
theorem C13_zlib_fails (cfg : DCfg) (cs : Codecs) (h : cs.zlibOpen [0x78, 0x9c] = .ok ()) :
    unmarshal cfg cs docHugeZlib = .error (.crash "makeslice: cap out of range") := by
  have h1 : checkHeader docHugeZlib = .ok { doctype := 3, version := 3, suffixStart := 6, suffixSize := 1 } := by decide
  have h2 : decompress cs (.zlib 0) (docHugeZlib.drop 6) =
      zlibDecode cs (-2 ^ 63) [0x78, 0x9c] := by
    have e1 : varintdecode (docHugeZlib.drop 6) = .ok (-2 ^ 63, 10) := by decide
    have e2 : varintdecode ((docHugeZlib.drop 6).drop 10) = .ok (2, 1) := by decide
    rw [decompress_eq]; unfold decompress'
    dsimp only
    rw [e1]
    show ((do
      let (cln, csz) ← varintdecode ((docHugeZlib.drop 6).drop 10)
      if cln < 0 ∨ cln > maxInt32 ∨ csz + cln > ((docHugeZlib.drop 6).drop 10).length then
        throw (.err (.corrupt .badOffset))
      zlibDecode cs (-2 ^ 63) ((((docHugeZlib.drop 6).drop 10).drop csz).take cln.toNat)) : Res Bytes) = _
    rw [e2]
    rfl
  have h3 : zlibDecode cs (-2 ^ 63) [0x78, 0x9c] = .error (.crash "makeslice: cap out of range") := by
    unfold zlibDecode; rw [h]; rfl
  have h4 : bodyInput cs docHugeZlib = .error (.crash "makeslice: cap out of range") := by
    unfold bodyInput
    rw [h1]
    show (match (match decompress cs (.zlib 0) (docHugeZlib.drop 6) with
              | .error e => .error e
              | .ok body => .ok (docHugeZlib.take 6 ++ body) : Res Bytes) with
        | .error e => .error e
        | .ok b => if (3 = 1) then .ok (b, 6) else if 6 = 0 then .error (.crash "slice bounds out of range")
          else .ok (b.drop (6 - 1), 1) : Res (Bytes × Nat)) = _
    rw [h2, h3]
  unfold unmarshal unmarshalHeaderBody
  rw [unmarshalRaw_body, h4]
  rfl

theorem C13_fails : ¬ NeverCrashes := fun h =>
  (h {} ⟨fun _ => .ok [], fun _ => .ok [], fun _ _ => .ok [], fun _ => .ok (), fun _ => .ok [],
    fun _ _ => .ok [], fun _ => .ok []⟩ docNegative).1 _ (C13_body_fails _ _)

/-- What holds: with sensible length fields, and whatever the state of the Decoder and whatever else
the document contains, UnmarshalHeaderBody into nil `interface{}` variables returns normally or with
an error.  Missing from the full claim: documents whose header length is 2^63 or more, whose
uncompressed zlib size is above 2^48, and (when the header is wanted) whose header is empty but has
a length field of more than one byte. -/
theorem C13_partial (cfg : DCfg) (cs : Codecs) (b : Bytes) (vh vb : Option Loc) (s : DState)
    (hlen : SaneHeaderLength b) (hzlib : vb.isSome → SaneZlibSize b)
    (hempty : vh.isSome → ShortEmptyHeader b)
    (hh : ∀ l, vh = some l → l.addr < s.heap.next ∧ s.heap.read l = .nil)
    (hb : ∀ l, vb = some l → l.addr < s.heap.next ∧ s.heap.read l = .nil)
    (hne : ∀ l l', vh = some l → vb = some l' → l'.addr ≠ l.addr) :
    (unmarshalHeaderBody cfg cs b vh vb s).1 = .ok () ∨
      ∃ er, (unmarshalHeaderBody cfg cs b vh vb s).1 = .error (.err er) := by
  have h := unmarshalRaw_safe cfg cs b vh vb s s.copyDepth hlen hzlib hempty rfl hh hb hne
  unfold unmarshalHeaderBody
  cases hr : unmarshalRaw cfg cs b vh vb s with
  | mk r s' =>
    dsimp only
    cases r with
    | ok u => exact Or.inl rfl
    | error e =>
      right
      obtain ⟨h1, h2, _, _⟩ := h.2 e s' hr
      cases e with
      | err er => exact ⟨er, rfl⟩
      | panic m => exact ⟨_, rfl⟩
      | crash m => exact absurd rfl (h1 m)
      | fuel => exact absurd rfl h2

theorem IsVarint.head {a : UInt8} {l v rest : Bytes} (ha : a.toNat < 128) (h : a :: l = v ++ rest)
    (hv : IsVarint v) : v = [a] ∧ rest = l := by
  cases v with
  | nil => simp [IsVarint] at hv
  | cons c v =>
    simp only [List.cons_append, List.cons.injEq] at h
    obtain ⟨rfl, h⟩ := h
    cases v with
    | nil => exact ⟨rfl, by simpa using h.symm⟩
    | cons d v => have := hv.1; omega

/-- A document whose header length is a one-byte varint has sensible header lengths. -/
theorem sane_of_lt {b : Bytes} {a : UInt8} (h : b[5]? = some a) (ha : a.toNat < 128) :
    SaneHeaderLength b ∧ ShortEmptyHeader b := by
  have hd : b.drop 5 = a :: b.drop 6 := by
    obtain ⟨hl, rfl⟩ := List.getElem?_eq_some_iff.1 h
    exact List.drop_eq_getElem_cons hl
  constructor
  · intro v rest h1 h2
    rw [hd] at h1
    obtain ⟨rfl, _⟩ := IsVarint.head ha h1 h2
    simp only [groups]
    omega
  · intro v rest h1 h2 _
    rw [hd] at h1
    obtain ⟨rfl, _⟩ := IsVarint.head ha h1 h2
    rfl

/-- Non-vacuity: a document with a self-referential COPY and a cut-off array is covered. -/
example (cfg : DCfg) (cs : Codecs) :
    let b : Bytes := [0x3d, 0xf3, 0x72, 0x6c, 3, 0, 0x2b, 5, 0x2f, 3]
    (unmarshalHeaderBody cfg cs b none (some (.cell 1)) DState.init).1 = .ok () ∨
      ∃ er, (unmarshalHeaderBody cfg cs b none (some (.cell 1)) DState.init).1 = .error (.err er) := by
  intro b
  have h := sane_of_lt (b := b) (a := 0) rfl (by decide)
  refine C13_partial cfg cs b none (some (.cell 1)) DState.init h.1 (fun _ => ?_) (fun h => by cases h)
    (fun l h => by cases h) (fun l h => ?_) (fun l l' h => by cases h)
  · rintro ⟨t, ht, h3⟩
    have : t = 3 := by simpa [b] using ht.symm
    subst this; simp at h3
  · cases h; exact ⟨by decide, rfl⟩

end Sereal

import Verif.Proof.HeadByteMem
import Verif.Proof.CallMem
import Verif.Proof.ApiDoc
import Verif.Props.C28
import Verif.Props.C42
import Mathlib.Data.List.TakeDrop
/-
C61: the header does not show in what the body is decoded to.
-/
namespace Sereal

/-- The document type is defined in the protocol version. -/
def TypeInVersion (version doctype : Nat) : Prop :=
  (doctype = 3 → 3 ≤ version) ∧ (doctype = 4 → 4 ≤ version)

/-- A pointer. -/
def Dest.isPointer : Dest → Prop
  | .any _ => True
  | .var _ _ => True
  | _ => False

/-- The full claim: two documents of protocol version 2 or later with the same document type and the same body have the
same outcome of Unmarshal, into whatever variable. -/
def HeaderHidden : Prop :=
  ∀ (cfg : DCfg) (tc : TCfg) (cs : Codecs) (b b' : Bytes) (ver ver' dt : Nat) (lf lf' suf suf' body : Bytes) (vb : Dest),
    IsDoc b ver dt lf suf body → IsDoc b' ver' dt lf' suf' body → 2 ≤ ver → 2 ≤ ver' → TypeInVersion ver dt →
    TypeInVersion ver' dt → vb.isPointer → call cfg tc cs b .none vb = call cfg tc cs b' .none vb

/-- The code does not satisfy it: offset 0 in a COPY is the last byte of the header, which the decoder takes for a tag.
The body COPY(0) is decoded to 0 without a user header and to 5 with a header that ends in 5. -/
theorem C61_fails :
    (match call {} noFloats dummyCodecs [0x3d, 0xf3, 0x72, 0x6c, 3, 0, 0x2f, 0] .none (.var (.int .int) ⟨0, []⟩)
        { d := DState.init, mem := { next := 1 } } with
      | (.ok _, s) => match s.mem.vars 0 with
        | .int i => some i
        | _ => none
      | _ => none) = some 0 ∧
    (match call {} noFloats dummyCodecs [0x3d, 0xf3, 0x72, 0x6c, 3, 2, 1, 5, 0x2f, 0] .none (.var (.int .int) ⟨0, []⟩)
        { d := DState.init, mem := { next := 1 } } with
      | (.ok _, s) => match s.mem.vars 0 with
        | .int i => some i
        | _ => none
      | _ => none) = some 5 ∧
    ¬ HeaderHidden := by
  have h1 : (match call {} noFloats dummyCodecs [0x3d, 0xf3, 0x72, 0x6c, 3, 0, 0x2f, 0] .none (.var (.int .int) ⟨0, []⟩)
        { d := DState.init, mem := { next := 1 } } with
      | (.ok _, s) => match s.mem.vars 0 with
        | .int i => some i
        | _ => none
      | _ => none) = some 0 := by decide +kernel
  have h2 : (match call {} noFloats dummyCodecs [0x3d, 0xf3, 0x72, 0x6c, 3, 2, 1, 5, 0x2f, 0] .none (.var (.int .int) ⟨0, []⟩)
        { d := DState.init, mem := { next := 1 } } with
      | (.ok _, s) => match s.mem.vars 0 with
        | .int i => some i
        | _ => none
      | _ => none) = some 5 := by decide +kernel
  refine ⟨h1, h2, fun h => ?_⟩
  have := h {} noFloats dummyCodecs [0x3d, 0xf3, 0x72, 0x6c, 3, 0, 0x2f, 0] [0x3d, 0xf3, 0x72, 0x6c, 3, 2, 1, 5, 0x2f, 0]
    3 3 0 [0] [2] [] [1, 5] [0x2f, 0] (.var (.int .int) ⟨0, []⟩)
    ⟨rfl, by decide, by decide, by show (0 : UInt8).toNat < 128; decide, by decide, by decide, by decide⟩
    ⟨rfl, by decide, by decide, by show (2 : UInt8).toNat < 128; decide, by decide, by decide, by decide⟩
    (by decide) (by decide) ⟨by decide, by decide⟩ ⟨by decide, by decide⟩ trivial
  rw [this, h2] at h1
  cases h1

/-- What Unmarshal hands to decode, errors included. -/
theorem bodyInput_isDoc {cs : Codecs} {b : Bytes} {ver dt : Nat} {lf suf body : Bytes} (h : IsDoc b ver dt lf suf body) :
    bodyInput cs b =
      match documentDecompressor ver dt with
      | .error e => .error e
      | .ok none => .ok (itemBuf ver (headBytes ver dt lf suf) body)
      | .ok (some c) => match decompress cs c body with
        | .error e => .error e
        | .ok y => .ok (itemBuf ver (headBytes ver dt lf suf) y) := by
  cases hdc : documentDecompressor ver dt with
  | error e =>
    unfold bodyInput
    rw [checkHeader_head h.head h.version.2]
    dsimp only
    rw [show (Head.hdr ver dt lf).version = ver from rfl, show (Head.hdr ver dt lf).doctype = dt from rfl, hdc]
  | ok dc =>
    cases dc with
    | none => exact bodyInput_doc h hdc rfl
    | some c =>
      dsimp only
      cases hd : decompress cs c body with
      | ok y => exact bodyInput_doc h hdc hd
      | error e =>
        have hbs := h.bodyStart
        unfold bodyInput
        rw [checkHeader_head h.head h.version.2]
        dsimp only
        rw [show (Head.hdr ver dt lf).version = ver from rfl, show (Head.hdr ver dt lf).doctype = dt from rfl, hdc]
        dsimp only
        rw [hbs, if_neg (by
          have : b.length = (headBytes ver dt lf suf).length + body.length := by rw [h.eq_head]; simp
          omega), Int.toNat_natCast]
        rw [h.eq_head, List.drop_left, hd]

theorem itemBuf_last (ver dt : Nat) (lf suf : Bytes) (body : Bytes) (hv : 2 ≤ ver) (hl : lf ≠ []) :
    ∃ a, (lf ++ suf).getLast? = some a ∧ itemBuf ver (headBytes ver dt lf suf) body = (a :: body, 1) := by
  have hne : lf ++ suf ≠ [] := by simp [hl]
  refine ⟨(lf ++ suf).getLast hne, List.getLast?_eq_some_getLast hne, ?_⟩
  unfold itemBuf
  rw [if_neg (by omega)]
  have hh : headBytes ver dt lf suf = (magicOf ver ++ [UInt8.ofNat (ver + 16 * dt)]) ++ (lf ++ suf) := by
    unfold headBytes; simp
  have hd : (headBytes ver dt lf suf).drop ((headBytes ver dt lf suf).length - 1) = [(lf ++ suf).getLast hne] := by
    have hne2 : headBytes ver dt lf suf ≠ [] := by rw [hh]; simp
    rw [List.drop_length_sub_one hne2]
    congr 1
    simp only [hh]
    exact List.getLast_append_of_ne_nil _ hne
  rw [hd]
  rfl

/-- What holds: the claim for bodies without offset 0 (in the decompressed body, if the document is compressed), and for
all bodies if the two headers end in the same byte.  Documents without a user header and documents of different
protocol versions are included. -/
theorem C61_partial (cfg : DCfg) (tc : TCfg) (cs : Codecs) (b b' : Bytes) (ver ver' dt : Nat) (lf lf' suf suf' body : Bytes)
    (vb : Dest) (h : IsDoc b ver dt lf suf body) (h' : IsDoc b' ver' dt lf' suf' body) (hv : 2 ≤ ver) (hv' : 2 ≤ ver')
    (ht : TypeInVersion ver dt) (ht' : TypeInVersion ver' dt) (hp : vb.isPointer)
    (hz : (lf ++ suf).getLast? = (lf' ++ suf').getLast? ∨
      ((dt = 0 → NoOffsetBelow 1 body) ∧ ∀ c y, decompress cs c body = .ok y → NoOffsetBelow 1 y)) :
    call cfg tc cs b .none vb = call cfg tc cs b' .none vb := by
  have hdd : documentDecompressor ver dt = documentDecompressor ver' dt := by
    unfold documentDecompressor
    unfold TypeInVersion at ht ht'
    split
    · rfl
    · split
      · rw [if_pos (by omega), if_pos (by omega)]
      · split
        · rfl
        · split
          · next h3 => rw [if_neg (by have := ht.1 h3; omega), if_neg (by have := ht'.1 h3; omega)]
          · split
            · next h4 => rw [if_neg (by have := ht.2 h4; omega), if_neg (by have := ht'.2 h4; omega)]
            · rfl
  have key : ∀ y, ((lf ++ suf).getLast? = (lf' ++ suf').getLast? ∨ NoOffsetBelow 1 y) → ∀ s,
      (match (.ok (itemBuf ver (headBytes ver dt lf suf) y) : Res (Bytes × Nat)) with
        | .error e => ((.error e, s) : Except Exn Unit × MSt)
        | .ok (buf, i) => decodeDest cfg tc .bodyPointer buf i vb s) =
      (match (.ok (itemBuf ver' (headBytes ver' dt lf' suf') y) : Res (Bytes × Nat)) with
        | .error e => (.error e, s)
        | .ok (buf, i) => decodeDest cfg tc .bodyPointer buf i vb s) := by
    intro y hy s
    obtain ⟨a, ha, hb⟩ := itemBuf_last ver dt lf suf y hv (List.length_pos_iff.1 h.varint.length_pos)
    obtain ⟨a', ha', hb'⟩ := itemBuf_last ver' dt lf' suf' y hv' (List.length_pos_iff.1 h'.varint.length_pos)
    rw [hb, hb']
    dsimp only
    rcases hy with he | hy
    · rw [ha, ha'] at he
      injection he with he
      rw [he]
    · have H := hy.beside (pre := [a]) (pre' := [a']) rfl rfl
      simp only [List.cons_append, List.nil_append] at H
      cases vb with
      | none => exact absurd hp id
      | value => exact absurd hp id
      | any l => unfold decodeDest; dsimp only; rw [(SameD.decode H cfg _ (Nat.le_refl 1) l).1, H.len]
      | var ty l => unfold decodeDest; dsimp only; rw [(SameM.decode H cfg tc _ (Nat.le_refl 1) _).1, H.len]
  funext s
  unfold call
  suffices hc : callRaw cfg tc cs b .none vb s = callRaw cfg tc cs b' .none vb s by rw [hc]
  have n1 : vb ≠ .none := by rintro rfl; exact hp
  have n2 : vb ≠ .value := by rintro rfl; exact hp
  rw [callRaw_body _ _ _ _ _ n1 (absurd · n2), callRaw_body _ _ _ _ _ n1 (absurd · n2), bodyInput_isDoc h, bodyInput_isDoc h', ← hdd]
  cases hdc : documentDecompressor ver dt with
  | error e => rfl
  | ok dc =>
    cases dc with
    | none =>
      have h0 : dt = 0 := by
        unfold documentDecompressor at hdc
        split at hdc
        · next h0 => exact h0
        · split at hdc
          · split at hdc <;> cases hdc
          · split at hdc
            · cases hdc
            · split at hdc
              · split at hdc <;> cases hdc
              · split at hdc
                · split at hdc <;> cases hdc
                · cases hdc
      exact key _ (hz.imp id fun h => h.1 h0) s
    | some c =>
      dsimp only
      cases hd : decompress cs c body with
      | error e => rfl
      | ok y => exact key _ (hz.imp id fun h => h.2 c y hd) s

/-- Non-vacuity: the body of two strings, the second a COPY of the first, has no offset 0; without a user header in
version 3, and with one in version 2. -/
example : NoOffsetBelow 1 [0x42, 0x61, 0x78, 0x2f, 2] ∧
    (∀ d ∈ [([0x3d, 0xf3, 0x72, 0x6c, 3, 0, 0x42, 0x61, 0x78, 0x2f, 2] : Bytes),
        [0x3d, 0x73, 0x72, 0x6c, 2, 2, 1, 5, 0x42, 0x61, 0x78, 0x2f, 2]],
      (match call {} noFloats dummyCodecs d .none (.var (.slice .str) ⟨0, []⟩) { d := DState.init, mem := { next := 1 } } with
        | (.ok _, s) => match s.mem.vars 1 with
          | .multi [.str a, .str b] => some (a, b)
          | _ => none
        | _ => none) = some ([0x78], [0x78])) := by
  refine ⟨?_, by decide +kernel⟩
  intro p b v r h hv _ hg
  have hlt : p.length < 5 := by
    have := congrArg List.length h
    simp at this
    omega
  have hb : ([0x42, 0x61, 0x78, 0x2f, 2] : Bytes)[p.length]? = some b := by rw [h]; simp
  have hd : ([0x42, 0x61, 0x78, 0x2f, 2] : Bytes).drop (p.length + 1) = v ++ r := by
    rw [h, List.drop_append]; simp
  generalize p.length = k at *
  match k, hlt with
  | 0, _ => cases hb; decide
  | 1, _ => cases hb; decide
  | 2, _ => cases hb; decide
  | 3, _ =>
    cases v with
    | nil => exact absurd hv id
    | cons x v =>
      have hx : x = 2 := by injection hd with h1 h2; exact h1.symm
      have hv' : v = [] := by
        injection hd with h1 h2
        exact (List.append_eq_nil_iff.1 h2.symm).1
      subst hx; subst hv'
      exact absurd hg (by decide)
  | 4, _ => cases hb; decide

end Sereal

import Verif.Props.C59
import Verif.Props.C61
import Verif.Props.C24
/-
C63: DecompressDocument does not show in typed variables and in the user header.
-/
namespace Sereal

/-- The full claim: decompressing a document first makes no difference to UnmarshalHeaderBody, whatever its arguments. -/
def DecompressHidden : Prop :=
  ∀ (cfg : DCfg) (tc : TCfg) (cs : Codecs) (put : Placer) (dst : Buffer) (b r : Bytes) (vh vb : Dest), put.Fits →
    SaneHeaderLength b → b.length < 2 ^ 63 → decompressDocument cs put dst b = .ok r → r.length < 2 ^ 63 →
    call cfg tc cs r vh vb = call cfg tc cs b vh vb

/-- Version 3, snappy; the user header is a COPY of the byte at offset 4, the version-type byte; the body is 1. -/
def docHeader4 : Bytes := [0x3d, 0xf3, 0x72, 0x6c, 0x23, 3, 1, 0x2f, 4, 1, 1]

/-- The code does not satisfy it: offsets in a header may lead to the version-type byte, which DecompressDocument
changes.  UnmarshalHeader of `docHeader4` fails before, and yields 3 afterwards. -/
theorem C63_fails :
    decompressDocument idCodecs snappyPut noBuffer docHeader4 = .ok [0x3d, 0xf3, 0x72, 0x6c, 3, 3, 1, 0x2f, 4, 1] ∧
    (call {} noFloats idCodecs docHeader4 (.var (.int .int) ⟨0, []⟩) .none { d := DState.init, mem := { next := 1 } }).1 =
      .error (.err .truncated) ∧
    (match call {} noFloats idCodecs [0x3d, 0xf3, 0x72, 0x6c, 3, 3, 1, 0x2f, 4, 1] (.var (.int .int) ⟨0, []⟩) .none
        { d := DState.init, mem := { next := 1 } } with
      | (.ok _, s) => match s.mem.vars 0 with
        | .int i => some i
        | _ => none
      | _ => none) = some 3 ∧
    ¬ DecompressHidden := by
  have h1 : decompressDocument idCodecs snappyPut noBuffer docHeader4 = .ok [0x3d, 0xf3, 0x72, 0x6c, 3, 3, 1, 0x2f, 4, 1] := by
    decide
  have h2 : (call {} noFloats idCodecs docHeader4 (.var (.int .int) ⟨0, []⟩) .none { d := DState.init, mem := { next := 1 } }).1 =
      .error (.err .truncated) := by decide +kernel
  have h3 : (match call {} noFloats idCodecs [0x3d, 0xf3, 0x72, 0x6c, 3, 3, 1, 0x2f, 4, 1] (.var (.int .int) ⟨0, []⟩) .none
        { d := DState.init, mem := { next := 1 } } with
      | (.ok _, s) => match s.mem.vars 0 with
        | .int i => some i
        | _ => none
      | _ => none) = some 3 := by decide +kernel
  refine ⟨h1, h2, h3, fun h => ?_⟩
  have hs : SaneHeaderLength docHeader4 := by
    intro v r hv hi
    obtain ⟨rfl, rfl⟩ := IsVarint.head (a := 3) (by decide) hv hi
    decide
  rw [h {} noFloats idCodecs snappyPut noBuffer docHeader4 _ (.var (.int .int) ⟨0, []⟩) .none snappyPut_fits hs (by decide) h1
    (by decide)] at h3
  rcases hc : call {} noFloats idCodecs docHeader4 (.var (.int .int) ⟨0, []⟩) .none { d := DState.init, mem := { next := 1 } } with ⟨r, s⟩
  rw [hc] at h2 h3
  dsimp only at h2
  subst h2
  cases h3

/-- UnmarshalHeader of a document whose compression is known. -/
theorem callRaw_header (cfg : DCfg) (tc : TCfg) (cs : Codecs) {b : Bytes} {ver dt : Nat} {lf suf body : Bytes}
    (h : IsDoc b ver dt lf suf body) {dc : Option Compressor} (hdc : documentDecompressor ver dt = .ok dc)
    (hempty : suf = [] → lf.length = 1) (vh : Dest) (s : MSt) :
    callRaw cfg tc cs b vh .none s =
      match vh, suf with
      | .none, _ => (.ok (), s)
      | _, [] => (.ok (), s)
      | .value, _ => (.error (.err .headerPointer), s)
      | vh, f :: _ => if f &&& 1 = 1 then
          decodeDest cfg tc .headerPointer (headBytes ver dt lf suf) (5 + lf.length + 1) vh s
        else (.ok (), s) := by
  have hlen : b.length = (headBytes ver dt lf suf).length + body.length := by rw [h.eq_head]; simp
  have hhl := headBytes_length ver dt lf suf
  have hsz := h.size
  have hbs := h.bodyStart
  have hss : (Head.hdr ver dt lf).suffixSize = suf.length + lf.length := by
    unfold Head.hdr
    dsimp only
    rw [h.len, sgn_small (by omega), wrapInt_small (by omega) (by omega)]
  unfold callRaw
  rw [M.lift_then, checkHeader_head h.head h.version.2]
  dsimp only
  rw [M.lift_then, show (Head.hdr ver dt lf).version = ver from rfl, show (Head.hdr ver dt lf).doctype = dt from rfl, hdc]
  dsimp only
  rw [M.failIf_then, hbs, if_neg (by omega), Int.toNat_natCast]
  have hpos := h.varint.length_pos
  cases suf with
  | nil =>
    have h1 : (Head.hdr ver dt lf).suffixSize = 1 := by
      rw [hss, hempty rfl]; rfl
    cases vh <;> (unfold headerDest; first | rfl | (dsimp only; rw [if_pos h1]; rfl))
  | cons f u =>
    have h1 : ¬ (Head.hdr ver dt lf).suffixSize = 1 := by
      rw [hss]; simp only [List.length_cons]; omega
    have hb : byteAt b (5 + lf.length) = Pure.pure f := by
      have : b[5 + lf.length]? = some f := by
        rw [h.eq]
        have hm := magicOf_length ver
        have : magicOf ver ++ [UInt8.ofNat (ver + 16 * dt)] ++ lf ++ f :: u ++ body =
            (magicOf ver ++ [UInt8.ofNat (ver + 16 * dt)] ++ lf) ++ f :: (u ++ body) := by simp
        rw [this, List.getElem?_append_right (by simp [hm]; omega)]
        simp only [List.length_append, List.length_cons, List.length_nil, hm]
        rw [show 5 + lf.length - (4 + (0 + 1) + lf.length) = 0 by omega]
        rfl
      unfold byteAt
      rw [this]
    have hs : sliceRange b 0 (headBytes ver dt lf (f :: u)).length = Pure.pure (headBytes ver dt lf (f :: u)) := by
      rw [sliceRange_zero (by omega), h.eq_head, List.take_left]
    have main : ∀ vh : Dest, vh ≠ .value → (do
        M.failIf (vh = .value) (.err .headerPointer)
        let suffixFlags ← M.lift (byteAt b (5 + lf.length))
        if suffixFlags &&& 1 = 1 then
          let by_ ← M.lift (sliceRange b 0 (headBytes ver dt lf (f :: u)).length)
          decodeDest cfg tc .headerPointer by_ (5 + lf.length + 1) vh
        else Pure.pure () : M Unit) s =
      if f &&& 1 = 1 then decodeDest cfg tc .headerPointer (headBytes ver dt lf (f :: u)) (5 + lf.length + 1) vh s
      else (.ok (), s) := by
      intro vh hv
      rw [M.failIf_then, if_neg hv, hb]
      show (if f &&& 1 = 1 then _ else _ : M Unit) s = _
      by_cases hf : f &&& 1 = 1
      · rw [if_pos hf, if_pos hf, hs]; rfl
      · rw [if_neg hf, if_neg hf]; rfl
    have andNone : ∀ x : M Unit, ∀ r, x s = r → (x >>= fun _ => bodyDest cfg tc cs b (Head.hdr ver dt lf) dc
        (headBytes ver dt lf (f :: u)).length .none) s = r := by
      intro x r hx
      rw [M.bind_apply]
      subst hx
      rcases x s with ⟨r, s'⟩
      cases r <;> rfl
    cases vh with
    | none => rfl
    | value =>
      refine andNone _ _ ?_
      unfold headerDest
      dsimp only
      rw [if_neg h1]
      rfl
    | any l =>
      refine andNone _ _ ?_
      unfold headerDest
      dsimp only
      rw [if_neg h1]
      exact main (.any l) (by simp)
    | var ty l =>
      refine andNone _ _ ?_
      unfold headerDest
      dsimp only
      rw [if_neg h1]
      exact main (.var ty l) (by simp)

/-- What holds: the claim for all arguments, if the header has no offsets below 5 and its length, if zero, is written with
one byte; for version 1, if header and body have no offsets below 5.  Without a variable for the header
(`Unmarshal`), no condition on the header is needed from version 2 on. -/
theorem C63_partial (cfg : DCfg) (tc : TCfg) (cs : Codecs) (put : Placer) (dst : Buffer) (b r : Bytes) (vh vb : Dest)
    (ver dt : Nat) (lf suf body : Bytes) (h : IsDoc b ver dt lf suf body) (hr : decompressDocument cs put dst b = .ok r)
    (hrsz : r.length < 2 ^ 63) (hempty : vh = .none ∨ (suf = [] → lf.length = 1))
    (hhead : vh = .none ∨ NoOffsetBelow 5 (lf ++ suf))
    (hbody : vb = .none ∨ 2 ≤ ver ∨ NoOffsetBelow 5 (r.drop 5)) :
    call cfg tc cs r vh vb = call cfg tc cs b vh vb := by
  rcases decompressDocument_doc h hr with ⟨h1, rfl⟩ | ⟨c, body', h1, h2, rfl⟩
  · rfl
  have hd : IsDoc (headBytes ver 0 lf suf ++ body') ver 0 lf suf body' :=
    ⟨rfl, h.version, by omega, h.varint, h.short, h.len, hrsz⟩
  have hr0 : documentDecompressor ver 0 = .ok none := rfl
  have h5 : ∀ dt, headBytes ver dt lf suf = (magicOf ver ++ [UInt8.ofNat (ver + 16 * dt)]) ++ (lf ++ suf) := by
    intro dt; unfold headBytes; simp
  have hm : ∀ dt, (magicOf ver ++ [UInt8.ofNat (ver + 16 * dt)]).length = 5 := by
    intro dt; simp [magicOf_length]
  have dest : ∀ {buf buf' : Bytes} (_ : Beside 5 buf buf') (e : Err) {i : Nat} (_ : 5 ≤ i) (d : Dest) (s : MSt),
      decodeDest cfg tc e buf i d s = decodeDest cfg tc e buf' i d s := by
    intro buf buf' H e i hi d s
    cases d with
    | none => rfl
    | value => rfl
    | any l => unfold decodeDest; dsimp only; rw [(SameD.decode H cfg _ hi l).1, H.len]
    | var ty l => unfold decodeDest; dsimp only; rw [(SameM.decode H cfg tc _ hi _).1, H.len]
  have raw : ∀ vh vb, (∀ s, callRaw cfg tc cs (headBytes ver 0 lf suf ++ body') vh vb s = callRaw cfg tc cs b vh vb s) →
      call cfg tc cs (headBytes ver 0 lf suf ++ body') vh vb = call cfg tc cs b vh vb := by
    intro vh vb h
    funext s
    unfold call
    rw [h s]
  have head : call cfg tc cs (headBytes ver 0 lf suf ++ body') vh .none = call cfg tc cs b vh .none := by
    refine raw _ _ fun s => ?_
    by_cases hv : vh = .none
    · subst hv
      have none : ∀ {b : Bytes} {dt : Nat} {body : Bytes} {dc : Option Compressor}, IsDoc b ver dt lf suf body →
          documentDecompressor ver dt = .ok dc → callRaw cfg tc cs b .none .none s = (.ok (), s) := by
        intro b dt body dc h hdc
        have hlen : b.length = (headBytes ver dt lf suf).length + body.length := by rw [h.eq_head]; simp
        unfold callRaw
        rw [M.lift_then, checkHeader_head h.head h.version.2]
        dsimp only
        rw [M.lift_then, show (Head.hdr ver dt lf).version = ver from rfl,
          show (Head.hdr ver dt lf).doctype = dt from rfl, hdc]
        dsimp only
        rw [M.failIf_then, h.bodyStart, if_neg (by omega)]
        rfl
      rw [none hd hr0, none h h1]
    · have hempty := hempty.resolve_left hv
      have hhead := hhead.resolve_left hv
      rw [callRaw_header cfg tc cs hd hr0 hempty, callRaw_header cfg tc cs h h1 hempty]
      have : ∀ f u, suf = f :: u → decodeDest cfg tc .headerPointer (headBytes ver 0 lf suf) (5 + lf.length + 1) vh s =
          decodeDest cfg tc .headerPointer (headBytes ver dt lf suf) (5 + lf.length + 1) vh s := by
        intro f u _
        refine dest ?_ _ (by omega) _ _
        rw [h5 0, h5 dt]
        exact hhead.beside (hm _) (hm _)
      cases suf with
      | nil => cases vh <;> rfl
      | cons f u =>
        cases vh with
        | none => rfl
        | value => rfl
        | any l => dsimp only; rw [this f u rfl]
        | var ty l => dsimp only; rw [this f u rfl]
  have bod : call cfg tc cs (headBytes ver 0 lf suf ++ body') .none vb = call cfg tc cs b .none vb := by
    by_cases hv : vb = .none
    · subst hv
      refine raw _ _ fun s => ?_
      have none : ∀ {b : Bytes} {dt : Nat} {body : Bytes} {dc : Option Compressor}, IsDoc b ver dt lf suf body →
          documentDecompressor ver dt = .ok dc → callRaw cfg tc cs b .none .none s = (.ok (), s) := by
        intro b dt body dc h hdc
        have hlen : b.length = (headBytes ver dt lf suf).length + body.length := by rw [h.eq_head]; simp
        unfold callRaw
        rw [M.lift_then, checkHeader_head h.head h.version.2]
        dsimp only
        rw [M.lift_then, show (Head.hdr ver dt lf).version = ver from rfl,
          show (Head.hdr ver dt lf).doctype = dt from rfl, hdc]
        dsimp only
        rw [M.failIf_then, h.bodyStart, if_neg (by omega)]
        rfl
      rw [none hd hr0, none h h1]
    · have hbody := hbody.resolve_left hv
      have e1 : bodyInput cs (headBytes ver 0 lf suf ++ body') = .ok (itemBuf ver (headBytes ver 0 lf suf) body') := bodyInput_raw hd
      have e2 : bodyInput cs b = .ok (itemBuf ver (headBytes ver dt lf suf) body') := bodyInput_doc (dc := some c) h h1 h2
      refine raw _ _ fun s => ?_
      rw [callRaw_body _ _ _ _ _ hv (by rw [e1]; intro _ m h; cases h), e1,
        callRaw_body _ _ _ _ _ hv (by rw [e2]; intro _ m h; cases h), e2]
      dsimp only
      unfold itemBuf
      by_cases hver : ver = 1
      · rw [if_pos hver, if_pos hver]
        dsimp only
        have hx : (headBytes ver 0 lf suf ++ body').drop 5 = lf ++ suf ++ body' := by
          rw [h5 0, List.append_assoc, List.drop_append, List.drop_eq_nil_of_le (by rw [hm]; omega), hm]
          rfl
        rw [headBytes_length, headBytes_length]
        have hb := hbody.resolve_left (by omega)
        rw [hx] at hb
        refine dest ?_ _ (by omega) _ _
        rw [h5 0, h5 dt, List.append_assoc, List.append_assoc _ (lf ++ suf) body']
        exact hb.beside (hm _) (hm _)
      · rw [if_neg hver, if_neg hver, headBytes_last h.varint.length_pos, headBytes_last h.varint.length_pos]
  rw [C59 cfg tc cs _ vh vb, C59 cfg tc cs b vh vb, head, bod]

/-- `C63_partial` applies to `docSnappy3` (version 3, snappy, the user header is "x"), with variables for header and body. -/
example : IsDoc docSnappy3 3 2 [3] [1, 0x61, 0x78] [2, 0x2b, 0] ∧
    decompressDocument idCodecs snappyPut noBuffer docSnappy3 =
      .ok [0x3d, 0xf3, 0x72, 0x6c, 3, 3, 1, 0x61, 0x78, 0x2b, 0] ∧
    NoOffsetBelow 5 ([3] ++ [1, 0x61, 0x78]) := by
  refine ⟨⟨by decide, by decide, by decide, ?_, by decide, by decide, by decide⟩, by decide, ?_⟩
  · show (3 : UInt8).toNat < 128
    decide
  · intro p b v r h _ _ _
    have hb : b ∈ ([3] ++ [1, 0x61, 0x78] : Bytes) := by rw [h]; simp
    revert b
    intro b h hb
    have : b = 3 ∨ b = 1 ∨ b = 0x61 ∨ b = 0x78 := by simpa using hb
    rcases this with rfl | rfl | rfl | rfl <;> decide

end Sereal

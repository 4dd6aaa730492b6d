import Verif.Proof.D
import Verif.Proof.Varint
/-
The bounds checks of the Go runtime in the header, decompression and API functions never fire: these
functions equal versions without the checks.
-/
namespace Sereal

/-- readHeader without bounds checks. -/
def readHeader' (b : Bytes) : Res Hdr :=
  if b.length ≤ headerSize then .error (.err .badHeader) else
  let first4 := uint32 b
  let vt := b[4]!
  let doctype := (vt >>> 4).toNat
  let version := (vt &&& 0x0f).toNat
  if first4 = magicHeaderBytesHighBitUTF8 then .error (.err .badHeaderUTF8)
  else
    let validHeader :=
      (first4 = magicHeaderBytes ∧ 1 ≤ version ∧ version ≤ 2) ∨
      (first4 = magicHeaderBytesHighBit ∧ 3 ≤ version)
    if ¬ validHeader then .error (.err .badHeader) else do
    let (ln, sz) ← varintdecode (b.drop 5)
    .ok { doctype, version,
          suffixSize := wrapInt (ln + sz)
          suffixStart := headerSize + sz }

theorem readHeader_eq (b : Bytes) : readHeader b = readHeader' b := by
  unfold readHeader readHeader'
  by_cases h : b.length ≤ headerSize
  · rw [if_pos h, if_pos h]
  · rw [if_neg h, if_neg h]
    match b, h with
    | b0 :: b1 :: b2 :: b3 :: b4 :: b5 :: rest, _ =>
      have h1 : cut (b0 :: b1 :: b2 :: b3 :: b4 :: b5 :: rest) 0 4 = .ok [b0, b1, b2, b3] := by
        unfold cut; rw [if_pos ⟨by omega, by simp⟩]; rfl
      have h2 : cutFrom (b0 :: b1 :: b2 :: b3 :: b4 :: b5 :: rest) 5 = .ok (b5 :: rest) := by
        unfold cutFrom; rw [if_pos (by simp)]; rfl
      have h3 : indexOf (b0 :: b1 :: b2 :: b3 :: b4 :: b5 :: rest) 4 = .ok b4 := rfl
      have h4 : uint32 (b0 :: b1 :: b2 :: b3 :: b4 :: b5 :: rest) = uint32 [b0, b1, b2, b3] := rfl
      have h5 : (b0 :: b1 :: b2 :: b3 :: b4 :: b5 :: rest)[4]! = b4 := rfl
      have h6 : (b0 :: b1 :: b2 :: b3 :: b4 :: b5 :: rest).drop 5 = b5 :: rest := rfl
      have hok : ∀ {α β : Type} (a : α) (f : α → Res β), ((.ok a : Res α) >>= f) = f a := fun _ _ => rfl
      simp only [h1, h2, h3, h4, h5, h6, hok]
    | [], h => exact absurd (by decide) h
    | [_], h => exact absurd (by simp [headerSize]) h
    | [_, _], h => exact absurd (by simp [headerSize]) h
    | [_, _, _], h => exact absurd (by simp [headerSize]) h
    | [_, _, _, _], h => exact absurd (by simp [headerSize]) h
    | [_, _, _, _, _], h => exact absurd (by simp [headerSize]) h

/-- decompress without bounds checks. -/
def decompress' (cs : Codecs) (c : Compressor) (b : Bytes) : Res Bytes :=
  match c with
  | .snappy incremental =>
    if incremental then do
      let (ln, sz) ← varintdecode b
      if ln < 0 ∨ sz + ln > b.length ∨ ln > maxInt32 then throw (.err (.corrupt .badOffset))
      liftCodec (cs.snappyDec ((b.drop sz).take ln.toNat))
    else liftCodec (cs.snappyDec b)
  | .zlib _ => do
    let (uln, usz) ← varintdecode b
    let buf := b.drop usz
    let (cln, csz) ← varintdecode buf
    if cln < 0 ∨ cln > maxInt32 ∨ csz + cln > buf.length then throw (.err (.corrupt .badOffset))
    zlibDecode cs uln ((buf.drop csz).take cln.toNat)
  | .zstd _ => do
    let (ln, sz) ← varintdecode b
    if ln < 0 ∨ ln > maxInt32 ∨ sz + ln > b.length then throw (.err (.corrupt .badOffset))
    liftCodec (cs.zstdDec ((b.drop sz).take ln.toNat))

theorem cut_ok {b : Bytes} {lo n : Nat} (h : lo + n ≤ b.length) : cut b lo (lo + n) = .ok ((b.drop lo).take n) := by
  unfold cut
  rw [if_pos ⟨by omega, h⟩, Nat.add_sub_cancel_left]

theorem cutFrom_ok {b : Bytes} {lo : Nat} (h : lo ≤ b.length) : cutFrom b lo = .ok (b.drop lo) := if_pos h

theorem decompress_eq (cs : Codecs) (c : Compressor) (b : Bytes) : decompress cs c b = decompress' cs c b := by
  have hlen : ∀ {b : Bytes} {ln sz}, varintdecode b = .ok (ln, sz) → sz ≤ b.length := by
    intro b ln sz h
    obtain ⟨v, rest, rfl, _, _, rfl, _⟩ := varintdecode_ok h
    simp
  cases c with
  | snappy inc =>
    unfold decompress decompress'
    cases inc with
    | false => rfl
    | true =>
      dsimp only
      rw [if_pos rfl, if_pos rfl]
      cases hv : varintdecode b with
      | error e => rfl
      | ok p =>
        obtain ⟨ln, sz⟩ := p
        show (do if ln < 0 ∨ sz + ln > b.length ∨ ln > maxInt32 then throw (.err (.corrupt .badOffset))
                 let b ← cut b sz (sz + ln.toNat); liftCodec (cs.snappyDec b) : Res Bytes) =
          (do if ln < 0 ∨ sz + ln > b.length ∨ ln > maxInt32 then throw (.err (.corrupt .badOffset))
              liftCodec (cs.snappyDec ((b.drop sz).take ln.toNat)))
        by_cases hb : ln < 0 ∨ sz + ln > b.length ∨ ln > maxInt32
        · rw [if_pos hb, if_pos hb]; rfl
        · rw [if_neg hb, if_neg hb, cut_ok (by omega)]; rfl
  | zlib l =>
    unfold decompress decompress'
    dsimp only
    cases hv : varintdecode b with
    | error e => rfl
    | ok p =>
      obtain ⟨uln, usz⟩ := p
      show (do let buf ← cutFrom b usz
               let (cln, csz) ← varintdecode buf
               if cln < 0 ∨ cln > maxInt32 ∨ csz + cln > buf.length then throw (.err (.corrupt .badOffset))
               let buf ← cut buf csz (csz + cln.toNat)
               zlibDecode cs uln buf : Res Bytes) =
        (do let (cln, csz) ← varintdecode (b.drop usz)
            if cln < 0 ∨ cln > maxInt32 ∨ csz + cln > (b.drop usz).length then throw (.err (.corrupt .badOffset))
            zlibDecode cs uln (((b.drop usz).drop csz).take cln.toNat))
      rw [cutFrom_ok (hlen hv)]
      show (do let (cln, csz) ← varintdecode (b.drop usz)
               if cln < 0 ∨ cln > maxInt32 ∨ csz + cln > (b.drop usz).length then throw (.err (.corrupt .badOffset))
               let buf ← cut (b.drop usz) csz (csz + cln.toNat)
               zlibDecode cs uln buf : Res Bytes) = _
      cases hv' : varintdecode (b.drop usz) with
      | error e => rfl
      | ok p =>
        obtain ⟨cln, csz⟩ := p
        show (do if cln < 0 ∨ cln > maxInt32 ∨ csz + cln > (b.drop usz).length then throw (.err (.corrupt .badOffset))
                 let buf ← cut (b.drop usz) csz (csz + cln.toNat)
                 zlibDecode cs uln buf : Res Bytes) =
          (do if cln < 0 ∨ cln > maxInt32 ∨ csz + cln > (b.drop usz).length then throw (.err (.corrupt .badOffset))
              zlibDecode cs uln (((b.drop usz).drop csz).take cln.toNat))
        by_cases hb : cln < 0 ∨ cln > maxInt32 ∨ csz + cln > (b.drop usz).length
        · rw [if_pos hb, if_pos hb]; rfl
        · rw [if_neg hb, if_neg hb, cut_ok (by omega)]; rfl
  | zstd l =>
    unfold decompress decompress'
    dsimp only
    cases hv : varintdecode b with
    | error e => rfl
    | ok p =>
      obtain ⟨ln, sz⟩ := p
      show (do if ln < 0 ∨ ln > maxInt32 ∨ sz + ln > b.length then throw (.err (.corrupt .badOffset))
               let b ← cut b sz (sz + ln.toNat); liftCodec (cs.zstdDec b) : Res Bytes) =
        (do if ln < 0 ∨ ln > maxInt32 ∨ sz + ln > b.length then throw (.err (.corrupt .badOffset))
            liftCodec (cs.zstdDec ((b.drop sz).take ln.toNat)))
      by_cases hb : ln < 0 ∨ ln > maxInt32 ∨ sz + ln > b.length
      · rw [if_pos hb, if_pos hb]; rfl
      · rw [if_neg hb, if_neg hb, cut_ok (by omega)]; rfl

/-- unmarshalRaw without bounds checks. -/
def unmarshalRaw' (cfg : DCfg) (cs : Codecs) (b : Bytes) (vheader vbody : Option Loc) : D Unit := do
  let header ← D.lift (checkHeader b)
  let decomp ← D.lift (documentDecompressor header.version header.doctype)
  let bodyStart := wrapInt (headerSize + header.suffixSize)
  D.failIf (bodyStart > b.length ∨ bodyStart < 0) (.err (.corrupt .badOffset))
  let bodyStart := bodyStart.toNat
  match vheader with
  | some ptr =>
    if header.suffixSize ≠ 1 then
      let suffixFlags ← byteAt b header.suffixStart
      if suffixFlags &&& 1 = 1 then
        let _ ← withTracked (decode cfg (b.take bodyStart) (fuelFor bodyStart)
          (header.suffixStart + 1) ptr)
  | none => pure ()
  match vbody with
  | some ptr =>
    let b ← match decomp with
      | some c => do
        let decompBody ← D.lift (decompress cs c (b.drop bodyStart))
        pure (b.take bodyStart ++ decompBody)
      | none => pure b
    if header.version = 1 then
      let _ ← withTracked (decode cfg b (fuelFor b.length) bodyStart ptr)
    else
      D.failIf (bodyStart = 0) (.crash "slice bounds out of range")
      let by_ := b.drop (bodyStart - 1)
      let _ ← withTracked (decode cfg by_ (fuelFor by_.length) 1 ptr)
  | none => pure ()

theorem sliceRange_zero {b : Bytes} {n : Nat} (h : n ≤ b.length) : sliceRange b 0 n = pure (b.take n) := by
  unfold sliceRange
  rw [if_pos ⟨by omega, h⟩]; rfl

theorem sliceFrom_pure {b : Bytes} {n : Nat} (h : n ≤ b.length) : sliceFrom b n = pure (b.drop n) := if_pos h

theorem D.bind_congr {α β : Type} {x : D α} {f g : α → D β} {s : DState} (h : ∀ a s', x s = (.ok a, s') → f a s' = g a s') :
    (x >>= f) s = (x >>= g) s := by
  show D.bind x f s = D.bind x g s
  unfold D.bind
  cases hx : x s with
  | mk r s' =>
    cases r with
    | error e => rfl
    | ok a => exact h a s' hx

theorem unmarshalRaw_eq (cfg : DCfg) (cs : Codecs) (b : Bytes) (vh vb : Option Loc) :
    unmarshalRaw cfg cs b vh vb = unmarshalRaw' cfg cs b vh vb := by
  funext s
  unfold unmarshalRaw unmarshalRaw'
  refine D.bind_congr (fun header s1 _ => ?_)
  refine D.bind_congr (fun decomp s2 _ => ?_)
  dsimp only
  refine D.bind_congr (fun _ s3 hb => ?_)
  have hb' : wrapInt (headerSize + header.suffixSize) ≤ b.length := by
    unfold D.failIf at hb
    split at hb
    · cases hb
    · omega
  generalize hbs : (wrapInt (headerSize + header.suffixSize)).toNat = bs
  have hle : bs ≤ b.length := by omega
  have hpure : ∀ {α β : Type} (a : α) (f : α → D β), ((Pure.pure a : D α) >>= f) = f a := fun _ _ => rfl
  have hlen : (b.take bs).length = bs := by simp; omega
  have h1 : sliceFrom b (bs - 1) = pure (b.drop (bs - 1)) := sliceFrom_pure (by omega)
  have h2 : ∀ d : Bytes, sliceFrom (b.take bs ++ d) (bs - 1) = pure ((b.take bs ++ d).drop (bs - 1)) :=
    fun d => sliceFrom_pure (by simp; omega)
  simp only [sliceRange_zero hle, sliceFrom_pure hle, hpure, hlen, h1, h2]
  cases vh <;> cases vb <;> cases decomp <;> rfl

end Sereal

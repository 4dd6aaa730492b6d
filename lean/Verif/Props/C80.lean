import Verif.Proof.CallMem
import Verif.Proof.MemSafe
import Verif.Proof.Marshal
import Verif.Model.Merge
import Verif.Props.C24
import Verif.Props.C29
/-
C80: Documents of versions 2, 3 and 4 differ in their first five bytes only.
-/
namespace Sereal

/-- A document given by its version, its type and everything behind the fifth byte. -/
def docOf (version doctype : Nat) (rest : Bytes) : Bytes :=
  magicOf version ++ UInt8.ofNat (version + 16 * doctype) :: rest

/-- The document type has the same meaning in both versions. -/
def SameType (v w dt : Nat) : Prop := (dt = 3 → (3 ≤ v ↔ 3 ≤ w)) ∧ (dt = 4 → (4 ≤ v ↔ 4 ≤ w))

theorem docOf_length (v dt : Nat) (rest : Bytes) : (docOf v dt rest).length = 5 + rest.length := by
  unfold docOf; simp [magicOf_length]; omega

theorem docOf_drop {v dt n : Nat} {rest : Bytes} (hn : 5 ≤ n) : (docOf v dt rest).drop n = rest.drop (n - 5) := by
  unfold docOf
  obtain ⟨m, rfl⟩ := Nat.le.dest hn
  rw [show magicOf v ++ UInt8.ofNat (v + 16 * dt) :: rest = (magicOf v ++ [UInt8.ofNat (v + 16 * dt)]) ++ rest by simp,
    List.drop_append, List.drop_eq_nil_of_le (by simp [magicOf_length]), List.nil_append]
  congr 1
  simp [magicOf_length]

theorem docOf_take {v dt n : Nat} {rest : Bytes} (hn : 5 ≤ n) :
    (docOf v dt rest).take n = docOf v dt (rest.take (n - 5)) := by
  unfold docOf
  obtain ⟨m, rfl⟩ := Nat.le.dest hn
  rw [show magicOf v ++ UInt8.ofNat (v + 16 * dt) :: rest = (magicOf v ++ [UInt8.ofNat (v + 16 * dt)]) ++ rest by simp,
    List.take_append, List.take_of_length_le (by simp [magicOf_length])]
  simp [magicOf_length]

theorem docOf_append (v dt : Nat) (r1 r2 : Bytes) : docOf v dt r1 ++ r2 = docOf v dt (r1 ++ r2) := by
  unfold docOf; simp

theorem sameType_decompressor {v w dt : Nat} (hv : 2 ≤ v) (hw : 2 ≤ w) (h : SameType v w dt) :
    documentDecompressor v dt = documentDecompressor w dt := by
  obtain ⟨h3, h4⟩ := h
  have v1 : v ≠ 1 := by omega
  have w1 : w ≠ 1 := by omega
  by_cases d3 : dt = 3
  · subst d3
    have := h3 rfl
    by_cases hl : v < 3
    · have hl' : w < 3 := by omega
      simp [documentDecompressor, serealRaw, serealSnappy, serealSnappyIncremental, serealZlib, hl, hl']
    · have hl' : ¬ w < 3 := by omega
      simp [documentDecompressor, serealRaw, serealSnappy, serealSnappyIncremental, serealZlib, hl, hl']
  by_cases d4 : dt = 4
  · subst d4
    have := h4 rfl
    by_cases hl : v < 4
    · have hl' : w < 4 := by omega
      simp [documentDecompressor, serealRaw, serealSnappy, serealSnappyIncremental, serealZlib, serealZstd, hl, hl']
    · have hl' : ¬ w < 4 := by omega
      simp [documentDecompressor, serealRaw, serealSnappy, serealSnappyIncremental, serealZlib, serealZstd, hl, hl']
  simp [documentDecompressor, serealZlib, serealZstd, d3, d4, v1, w1]

/-- What the header checks make of what is behind the fifth byte; it does not depend on the version. -/
theorem readHeader_docOf (dt : Nat) (hdt : dt < 16) (rest : Bytes) :
    (∃ e, ∀ v, 1 ≤ v → v ≤ 4 → readHeader (docOf v dt rest) = .error e) ∨
    ∃ x rest', rest = x ++ rest' ∧ IsVarint x ∧ x.length ≤ 10 ∧
      ∀ v, 1 ≤ v → v ≤ 4 → Head (docOf v dt rest) v dt x rest' := by
  cases rest with
  | nil => exact .inl ⟨_, fun v h1 h4 => readHeader_short (by rw [docOf_length]; simp)⟩
  | cons c r =>
    cases hd : varintdecode (c :: r) with
    | ok p =>
      obtain ⟨ln, sz⟩ := p
      obtain ⟨x, rest', h5, h6, h7, h8, h9⟩ := varintdecode_ok hd
      exact .inr ⟨x, rest', h5, h6, h7, fun v h1 h4 => ⟨h1, by omega, hdt, h6, h7, by rw [← h5]; rfl⟩⟩
    | error e =>
      refine .inl ⟨e, fun v h1 h4 => ?_⟩
      have hn := ofNibbles (v := v) (d := dt) (by omega) hdt
      unfold docOf
      by_cases hl : v ≤ 2
      · rw [magicOf_low hl]
        show readHeader (0x3d :: 0x73 :: 0x72 :: 0x6c :: UInt8.ofNat (v + 16 * dt) :: c :: r) = _
        rw [readHeader_cons, if_neg (by decide), if_pos (Or.inl ⟨rfl, by rw [hn]; omega, by rw [hn]; omega⟩), hd]
      · rw [magicOf_high (by omega)]
        show readHeader (0x3d :: 0xf3 :: 0x72 :: 0x6c :: UInt8.ofNat (v + 16 * dt) :: c :: r) = _
        rw [readHeader_cons, if_neg (by decide), if_pos (Or.inr ⟨rfl, by rw [hn]; omega⟩), hd]

theorem checkHeader_docOf (dt : Nat) (hdt : dt < 16) (rest : Bytes) :
    (∃ e, ∀ v, 1 ≤ v → v ≤ 4 → checkHeader (docOf v dt rest) = .error e) ∨
    ∃ x rest', rest = x ++ rest' ∧ IsVarint x ∧ x.length ≤ 10 ∧
      ∀ v, 1 ≤ v → v ≤ 4 → checkHeader (docOf v dt rest) = .ok (Head.hdr v dt x) := by
  rcases readHeader_docOf dt hdt rest with ⟨e, h⟩ | ⟨x, rest', h1, h2, h3, h4⟩
  · refine .inl ⟨e, fun v hv hv4 => ?_⟩
    unfold checkHeader
    rw [h v hv hv4]
    rfl
  · exact .inr ⟨x, rest', h1, h2, h3, fun v hv hv4 => checkHeader_head (h4 v hv hv4) hv4⟩

theorem sane_docOf {v dt : Nat} {rest : Bytes} (h : SaneHeaderLength (docOf v dt rest)) {x rest' : Bytes}
    (he : rest = x ++ rest') (hx : IsVarint x) : groups x < 2 ^ 63 :=
  h x rest' (by rw [docOf_drop (Nat.le_refl 5)]; simpa using he) hx

section
variable {v w dt : Nat} {rest : Bytes}

theorem bodyInput_docOf (cs : Codecs) (hv : 2 ≤ v ∧ v ≤ 4) (hw : 2 ≤ w ∧ w ≤ 4) (hdt : dt < 16) (ht : SameType v w dt)
    (hs : SaneHeaderLength (docOf v dt rest)) : bodyInput cs (docOf v dt rest) = bodyInput cs (docOf w dt rest) := by
  unfold bodyInput
  rcases checkHeader_docOf dt hdt rest with ⟨e, h⟩ | ⟨x, rest', h1, h2, h3, h4⟩
  · rw [h v (by omega) hv.2, h w (by omega) hw.2]
  rw [h4 v (by omega) hv.2, h4 w (by omega) hw.2]
  dsimp only [Head.hdr]
  rw [sameType_decompressor hv.1 hw.1 ht]
  cases documentDecompressor w dt with
  | error e => rfl
  | ok dc =>
    dsimp only
    rw [docOf_length, docOf_length]
    by_cases hb : wrapInt (headerSize + wrapInt (sgn (groups x) + x.length)) > (5 + rest.length : Nat) ∨
        wrapInt (headerSize + wrapInt (sgn (groups x) + x.length)) < 0
    · rw [if_pos hb, if_pos hb]
    · rw [if_neg hb, if_neg hb]
      obtain ⟨hb1, _, _⟩ := bodyStart_eq h3 (sane_docOf hs h1 h2) hb
      rw [hb1]
      have hx := h2.length_pos
      rw [docOf_drop (by omega), docOf_drop (by omega), docOf_take (by omega), docOf_take (by omega)]
      have h5 : ∀ n r, v = n → (if v = 1 then (.ok (docOf v dt r, 5 + x.length + groups x) : Res (Bytes × Nat))
          else if 5 + x.length + groups x = 0 then .error (.crash "slice bounds out of range")
          else .ok ((docOf v dt r).drop (5 + x.length + groups x - 1), 1)) =
          .ok (r.drop (x.length + groups x - 1), 1) := by
        intro n r _
        rw [if_neg (by omega), if_neg (by omega), docOf_drop (by omega)]
        congr 3
        omega
      have h6 : ∀ n r, w = n → (if w = 1 then (.ok (docOf w dt r, 5 + x.length + groups x) : Res (Bytes × Nat))
          else if 5 + x.length + groups x = 0 then .error (.crash "slice bounds out of range")
          else .ok ((docOf w dt r).drop (5 + x.length + groups x - 1), 1)) =
          .ok (r.drop (x.length + groups x - 1), 1) := by
        intro n r _
        rw [if_neg (by omega), if_neg (by omega), docOf_drop (by omega)]
        congr 3
        omega
      cases dc with
      | none =>
        dsimp only
        rw [h5 _ _ rfl, h6 _ _ rfl]
      | some c =>
        dsimp only
        cases decompress cs c (rest.drop (5 + x.length + groups x - 5)) with
        | error e => rfl
        | ok body =>
          dsimp only
          rw [docOf_append, docOf_append, h5 _ _ rfl, h6 _ _ rfl]

theorem callRaw_docOf (cfg : DCfg) (tc : TCfg) (cs : Codecs) (dest : Dest) (s : MSt) (hv : 2 ≤ v ∧ v ≤ 4)
    (hw : 2 ≤ w ∧ w ≤ 4) (hdt : dt < 16) (ht : SameType v w dt) (hs : SaneHeaderLength (docOf v dt rest)) :
    callRaw cfg tc cs (docOf v dt rest) .none dest s = callRaw cfg tc cs (docOf w dt rest) .none dest s := by
  unfold callRaw
  rw [M.lift_then, M.lift_then]
  rcases checkHeader_docOf dt hdt rest with ⟨e, h⟩ | ⟨x, rest', h1, h2, h3, h4⟩
  · rw [h v (by omega) hv.2, h w (by omega) hw.2]
  rw [h4 v (by omega) hv.2, h4 w (by omega) hw.2]
  dsimp only [Head.hdr]
  rw [M.lift_then, M.lift_then, sameType_decompressor hv.1 hw.1 ht]
  cases documentDecompressor w dt with
  | error e => rfl
  | ok dc =>
    dsimp only
    rw [M.failIf_then, M.failIf_then, docOf_length, docOf_length]
    by_cases hb : wrapInt (headerSize + wrapInt (sgn (groups x) + x.length)) > (5 + rest.length : Nat) ∨
        wrapInt (headerSize + wrapInt (sgn (groups x) + x.length)) < 0
    · rw [if_pos hb, if_pos hb]
    rw [if_neg hb, if_neg hb]
    obtain ⟨hb1, _, _⟩ := bodyStart_eq h3 (sane_docOf hs h1 h2) hb
    rw [hb1]
    have hx := h2.length_pos
    show bodyDest cfg tc cs (docOf v dt rest) _ dc _ dest s = bodyDest cfg tc cs (docOf w dt rest) _ dc _ dest s
    have fin : ∀ (r : Bytes) u, (2 ≤ u ∧ u ≤ 4) → (do
        M.failIf (dest = .value) (.err .bodyPointer)
        if u = 1 then decodeDest cfg tc .bodyPointer (docOf u dt r) (5 + x.length + groups x) dest
        else do
          M.failIf (5 + x.length + groups x = 0) (.crash "slice bounds out of range")
          decodeDest cfg tc .bodyPointer ((docOf u dt r).drop (5 + x.length + groups x - 1)) 1 dest : M Unit) s =
        (if dest = .value then (.error (.err .bodyPointer), s)
          else decodeDest cfg tc .bodyPointer (r.drop (x.length + groups x - 1)) 1 dest s) := by
      intro r u hu
      rw [M.failIf_then]
      by_cases hd : dest = .value
      · rw [if_pos hd, if_pos hd]
      rw [if_neg hd, if_neg hd, if_neg (by omega), M.failIf_then, if_neg (by omega), docOf_drop (by omega),
        show 5 + x.length + groups x - 1 - 5 = x.length + groups x - 1 by omega]
    cases hdest : dest with
    | none => rfl
    | _ =>
      unfold bodyDest
      rw [hdest] at fin
      cases dc with
      | none =>
        dsimp only
        rw [M.pure_then, M.pure_then]
        exact (fin rest v hv).trans (fin rest w hw).symm
      | some c =>
        dsimp only
        rw [docOf_drop (by omega), docOf_drop (by omega), docOf_take (by omega), docOf_take (by omega)]
        rw [M.lift_then, M.lift_then]
        cases decompress cs c (rest.drop (5 + x.length + groups x - 5)) with
        | error e => rfl
        | ok body =>
          dsimp only
          rw [M.pure_then, M.pure_then, docOf_append, docOf_append]
          exact (fin _ v hv).trans (fin _ w hw).symm

theorem mergeBody_docOf (cs : Codecs) (hv : 2 ≤ v ∧ v ≤ 4) (hw : 2 ≤ w ∧ w ≤ 4) (hdt : dt < 16) (ht : SameType v w dt)
    (hs : SaneHeaderLength (docOf v dt rest)) : mergeBody cs (docOf v dt rest) = mergeBody cs (docOf w dt rest) := by
  unfold mergeBody
  rcases readHeader_docOf dt hdt rest with ⟨e, h⟩ | ⟨x, rest', h1, h2, h3, h4⟩
  · rw [h v (by omega) hv.2, h w (by omega) hw.2]; rfl
  rw [readHeader_head (h4 v (by omega) hv.2), readHeader_head (h4 w (by omega) hw.2)]
  dsimp only [Head.hdr, Bind.bind, Except.bind]
  rw [sameType_decompressor hv.1 hw.1 ht, docOf_length, docOf_length]
  by_cases hb : wrapInt (headerSize + wrapInt (sgn (groups x) + x.length)) < 0 ∨
      wrapInt (headerSize + wrapInt (sgn (groups x) + x.length)) > (5 + rest.length : Nat)
  · rw [if_pos hb, if_pos hb]
  rw [if_neg hb, if_neg hb]
  obtain ⟨hb1, _, _⟩ := bodyStart_eq h3 (sane_docOf hs h1 h2) (fun h => hb h.symm)
  rw [hb1, docOf_drop (by omega), docOf_drop (by omega)]

/-- What `DecompressDocument` puts together. -/
theorem assemble_docOf (slot : Slot) (dst : Buffer) {n : Nat} (body : Bytes) (hv : v ≤ 4) (hdt : dt < 16) (hn : 5 ≤ n)
    (hn' : n ≤ 5 + rest.length) : assemble slot dst (docOf v dt rest) n body =
      (if dst.len > 0 then hasSameBuffer slot body.length dst else .ok false).map
        fun _ => docOf v 0 (rest.take (n - 5) ++ body) := by
  unfold assemble
  have hclear : ∀ r, clearType (docOf v dt r) = .ok (docOf v 0 r) := by
    intro r
    unfold clearType
    rw [if_pos (by rw [docOf_length]; omega)]
    have := modify_four (ver := v) (dt := dt) (rest := r) (by omega) hdt
    unfold docOf
    simpa using this
  have hcut : cut (docOf v dt rest) 0 n = .ok (docOf v dt (rest.take (n - 5))) := by
    unfold cut
    rw [if_pos (by rw [docOf_length]; omega)]
    simp only [List.drop_zero, Nat.sub_zero]
    rw [docOf_take hn]
  cases (if dst.len > 0 then hasSameBuffer slot body.length dst else .ok false : Res Bool) with
  | error e => rfl
  | ok same =>
    dsimp only [Bind.bind, Except.bind, Except.map]
    rw [hcut]
    dsimp only
    rw [docOf_append]
    have hin : ∀ tail, cut (docOf v dt (rest.take (n - 5) ++ body) ++ tail) 0 (n + body.length) =
        .ok (docOf v dt (rest.take (n - 5) ++ body)) := by
      intro tail
      have hl : n + body.length = (docOf v dt (rest.take (n - 5) ++ body)).length := by
        rw [docOf_length, List.length_append, List.length_take]; omega
      unfold cut
      rw [if_pos (by rw [List.length_append]; omega)]
      simp only [List.drop_zero, Nat.sub_zero]
      rw [hl, List.take_left]
    cases same with
    | false => cases slot <;> exact hclear _
    | true =>
      cases slot with
      | fresh c => exact hclear _
      | inPlace tail =>
        dsimp only
        rw [hin tail]
        exact hclear _

theorem decompressDocument_docOf (cs : Codecs) (put : Placer) (dst : Buffer) (hv : 2 ≤ v ∧ v ≤ 4) (hw : 2 ≤ w ∧ w ≤ 4)
    (hdt : dt < 16) (ht : SameType v w dt) (hs : SaneHeaderLength (docOf v dt rest)) :
    (∃ e, decompressDocument cs put dst (docOf v dt rest) = .error e ∧
      decompressDocument cs put dst (docOf w dt rest) = .error e) ∨
    ∃ r, decompressDocument cs put dst (docOf v dt rest) = .ok (docOf v 0 r) ∧
      decompressDocument cs put dst (docOf w dt rest) = .ok (docOf w 0 r) := by
  unfold decompressDocument
  rcases checkHeader_docOf dt hdt rest with ⟨e, h⟩ | ⟨x, rest', h1, h2, h3, h4⟩
  · rw [h v (by omega) hv.2, h w (by omega) hw.2]; exact .inl ⟨e, rfl, rfl⟩
  rw [h4 v (by omega) hv.2, h4 w (by omega) hw.2]
  dsimp only [Head.hdr, Bind.bind, Except.bind]
  rw [sameType_decompressor hv.1 hw.1 ht, docOf_length, docOf_length]
  cases hdc : documentDecompressor w dt with
  | error e => exact .inl ⟨e, rfl, rfl⟩
  | ok dc =>
    dsimp only
    by_cases hb : wrapInt (headerSize + wrapInt (sgn (groups x) + x.length)) > (5 + rest.length : Nat) ∨
        wrapInt (headerSize + wrapInt (sgn (groups x) + x.length)) < 0
    · rw [if_pos hb, if_pos hb]; exact .inl ⟨_, rfl, rfl⟩
    rw [if_neg hb, if_neg hb]
    obtain ⟨hb1, hb2, _⟩ := bodyStart_eq h3 (sane_docOf hs h1 h2) hb
    rw [hb1]
    cases dc with
    | none =>
      have := documentDecompressor_none hdc
      subst this
      exact .inr ⟨rest, rfl, rfl⟩
    | some c =>
      dsimp only
      have hcd : codecDst dst (docOf v dt rest) (5 + x.length + groups x) = codecDst dst (docOf w dt rest) (5 + x.length + groups x) := by
        unfold codecDst; rw [docOf_length, docOf_length]
      have hcf : cutFrom (docOf v dt rest) (5 + x.length + groups x) = cutFrom (docOf w dt rest) (5 + x.length + groups x) := by
        unfold cutFrom; rw [docOf_length, docOf_length, docOf_drop (by omega), docOf_drop (by omega)]
      rw [hcd, hcf]
      cases codecDst dst (docOf w dt rest) (5 + x.length + groups x) with
      | error e => exact .inl ⟨e, rfl, rfl⟩
      | ok into =>
        dsimp only
        cases cutFrom (docOf w dt rest) (5 + x.length + groups x) with
        | error e => exact .inl ⟨e, rfl, rfl⟩
        | ok input =>
          dsimp only
          cases decompress cs c input with
          | error e => exact .inl ⟨e, rfl, rfl⟩
          | ok body =>
            dsimp only
            rw [assemble_docOf _ _ _ hv.2 hdt (by omega) hb2, assemble_docOf _ _ _ hw.2 hdt (by omega) hb2]
            cases (if dst.len > 0 then hasSameBuffer (put into body) body.length dst else .ok false : Res Bool) with
            | error e => exact .inl ⟨e, rfl, rfl⟩
            | ok same => exact .inr ⟨_, rfl, rfl⟩

/-- C80, reading.  For every byte string with the magic of version `v` and every document type that means the same in
version `w`: `Unmarshal` does the same, success or failure, if the first five bytes are replaced by those of version `w`,
for every kind of variable and with every memory; so does `LooksLikeSereal`; `Append` of a merger does the same to
every merger; and the results of `DecompressDocument` differ in these bytes only.  `SaneHeaderLength`: the length of the
header is not a negative Go int (C80_length). -/
theorem C80_read (hv : 2 ≤ v ∧ v ≤ 4) (hw : 2 ≤ w ∧ w ≤ 4) (hdt : dt < 16) (ht : SameType v w dt)
    (hs : SaneHeaderLength (docOf v dt rest)) (cs : Codecs) :
    (∀ cfg, unmarshal cfg cs (docOf v dt rest) = unmarshal cfg cs (docOf w dt rest)) ∧
    (∀ cfg tc dest s, call cfg tc cs (docOf v dt rest) .none dest s = call cfg tc cs (docOf w dt rest) .none dest s) ∧
    (∀ cfg tc ty l mem, unmarshalInto cfg tc cs (docOf v dt rest) ty l mem = unmarshalInto cfg tc cs (docOf w dt rest) ty l mem) ∧
    looksLikeSereal (docOf v dt rest) = looksLikeSereal (docOf w dt rest) ∧
    (∀ c extra cap s, mergeAppend c cs extra cap (docOf v dt rest) s = mergeAppend c cs extra cap (docOf w dt rest) s) ∧
    (∀ put dst,
      (∃ e, decompressDocument cs put dst (docOf v dt rest) = .error e ∧
        decompressDocument cs put dst (docOf w dt rest) = .error e) ∨
      ∃ r, decompressDocument cs put dst (docOf v dt rest) = .ok (docOf v 0 r) ∧
        decompressDocument cs put dst (docOf w dt rest) = .ok (docOf w 0 r)) := by
  have hb := bodyInput_docOf cs hv hw hdt ht hs
  refine ⟨fun cfg => ?_, fun cfg tc dest s => ?_, fun cfg tc ty l mem => ?_, ?_, fun c extra cap s => ?_,
    fun put dst => decompressDocument_docOf cs put dst hv hw hdt ht hs⟩
  · unfold unmarshal unmarshalHeaderBody
    rw [unmarshalRaw_body, unmarshalRaw_body, hb]
  · unfold call
    rw [callRaw_docOf cfg tc cs dest s hv hw hdt ht hs]
  · unfold unmarshalInto
    rw [bodyOf_eq, bodyOf_eq, hb]
  · unfold looksLikeSereal
    rw [docOf_length, docOf_length]
    rcases readHeader_docOf dt hdt rest with ⟨e, h⟩ | ⟨x, rest', _, _, _, h4⟩
    · rw [h v (by omega) hv.2, h w (by omega) hw.2]
    · rw [readHeader_head (h4 v (by omega) hv.2), readHeader_head (h4 w (by omega) hw.2)]
  · unfold mergeAppend
    rw [mergeBody_docOf cs hv hw hdt ht hs]

end

/-! ### Writing -/

theorem encHeader_docOf {cfg : ECfg} {n : Nat} (hn : cfg.ver = n) (h1 : 2 ≤ n ∧ n ≤ 3) (suffix : Bytes) {dt : Nat} (hdt : dt < 16) :
    encHeader cfg suffix dt = docOf n dt suffix := by
  unfold encHeader docOf
  rw [hn]
  have hb : ∀ n' : Fin 4, ∀ d : Fin 16, UInt8.ofNat n' ||| (UInt8.ofNat d <<< 4) = UInt8.ofNat (n' + 16 * d) := by decide
  have hb := hb ⟨n, by omega⟩ ⟨dt, hdt⟩
  dsimp only at hb
  rw [hb]
  congr 1
  obtain rfl | rfl : n = 2 ∨ n = 3 := by omega
  · decide
  · decide

theorem headerSuffix_versions (cfg : ECfg) (inp : Heap) (header : Option Val) {n m : Nat} (hn : 2 ≤ (cfg.withVersion n).ver)
    (hm : 2 ≤ (cfg.withVersion m).ver) : headerSuffix (cfg.withVersion n) inp header = headerSuffix (cfg.withVersion m) inp header := by
  unfold headerSuffix
  cases header with
  | none => rfl
  | some h =>
    dsimp only
    rw [if_pos hn, if_pos hm, encodeAfter_withVersion, encodeAfter_withVersion]

theorem marshalRaw_versions (cfg : ECfg) (cs : Codecs) (inp : Heap) (header : Option Val) (val : Val) (w : Nat) (hw : w = 0 ∨ w = 3)
    (hz : ∀ l, cfg.compression ≠ some (.zlib l)) :
    (∃ e, marshalRaw (cfg.withVersion 2) cs inp header val = .error e ∧
      marshalRaw (cfg.withVersion w) cs inp header val = .error e) ∨
    ∃ dt rest, (dt = 0 ∨ dt = 2) ∧ marshalRaw (cfg.withVersion 2) cs inp header val = .ok (docOf 2 dt rest) ∧
      marshalRaw (cfg.withVersion w) cs inp header val = .ok (docOf 3 dt rest) := by
  have v2 : (cfg.withVersion 2).ver = 2 := rfl
  have v3 : (cfg.withVersion w).ver = 3 := by rcases hw with rfl | rfl <;> rfl
  have e2 : ∀ dt suffix, dt = 0 ∨ dt = 2 → magicFor 2 ++ (UInt8.ofNat 2 ||| (UInt8.ofNat dt <<< 4)) :: suffix = docOf 2 dt suffix :=
    fun dt suffix hd => encHeader_docOf v2 ⟨by omega, by omega⟩ suffix (by omega)
  have e3 : ∀ dt suffix, dt = 0 ∨ dt = 2 → magicFor 3 ++ (UInt8.ofNat 3 ||| (UInt8.ofNat dt <<< 4)) :: suffix = docOf 3 dt suffix :=
    fun dt suffix hd => by
      have := encHeader_docOf v3 ⟨by omega, by omega⟩ suffix (dt := dt) (by omega)
      unfold encHeader at this
      rwa [v3] at this
  unfold marshalRaw
  rw [v2, v3, headerSuffix_versions cfg inp header (n := w) (m := 2) (by rw [v3]; omega) (by omega)]
  cases headerSuffix (cfg.withVersion 2) inp header with
  | error e => exact .inl ⟨e, rfl, rfl⟩
  | ok suffix =>
    dsimp only [Bind.bind, Except.bind]
    rw [if_neg (by omega), if_neg (by omega), encodeAfter_withVersion, encodeAfter_withVersion]
    cases encodeAfter cfg inp [0] val with
    | error e => exact .inl ⟨e, rfl, rfl⟩
    | ok body =>
      dsimp only
      have raw2 := e2 0 suffix (.inl rfl)
      have raw3 := e3 0 suffix (.inl rfl)
      have hraw : (.ok (magicFor 2 ++ (UInt8.ofNat 2 ||| (UInt8.ofNat serealRaw <<< 4)) :: suffix ++ body) : Res Bytes) =
          .ok (docOf 2 0 (suffix ++ body)) ∧
          (.ok (magicFor 3 ++ (UInt8.ofNat 3 ||| (UInt8.ofNat serealRaw <<< 4)) :: suffix ++ body) : Res Bytes) =
          .ok (docOf 3 0 (suffix ++ body)) := by
        rw [← docOf_append, ← docOf_append, ← raw2, ← raw3]
        exact ⟨rfl, rfl⟩
      have c2 : ∀ n, (cfg.withVersion n).compression = cfg.compression := fun _ => rfl
      have t2 : ∀ n, (cfg.withVersion n).compressionThreshold = cfg.compressionThreshold := fun _ => rfl
      simp only [c2, t2]
      cases hc : cfg.compression with
      | none => exact .inr ⟨0, suffix ++ body, .inl rfl, hraw.1, hraw.2⟩
      | some c =>
        dsimp only
        by_cases ht : cfg.compressionThreshold = 0 ∨ (body.length : Int) ≥ cfg.compressionThreshold
        · rw [if_pos ht, if_pos ht]
          cases compress cs c body with
          | error e => exact .inl ⟨e, rfl, rfl⟩
          | ok z =>
            dsimp only
            have raw2 := e2 2 suffix (.inr rfl)
            have raw3 := e3 2 suffix (.inr rfl)
            have hsn : (.ok (magicFor 2 ++ (UInt8.ofNat 2 ||| (UInt8.ofNat 2 <<< 4)) :: suffix ++ z) : Res Bytes) =
                .ok (docOf 2 2 (suffix ++ z)) ∧
                (.ok (magicFor 3 ++ (UInt8.ofNat 3 ||| (UInt8.ofNat 2 <<< 4)) :: suffix ++ z) : Res Bytes) =
                .ok (docOf 3 2 (suffix ++ z)) := by
              rw [← docOf_append, ← docOf_append, ← raw2, ← raw3]
              exact ⟨rfl, rfl⟩
            cases c with
            | snappy inc =>
              cases inc with
              | true => exact .inr ⟨2, suffix ++ z, .inr rfl, hsn.1, hsn.2⟩
              | false => exact .inl ⟨_, rfl, rfl⟩
            | zlib l => exact absurd hc (hz l)
            | zstd => exact .inl ⟨_, rfl, rfl⟩
        · rw [if_neg ht, if_neg ht]
          exact .inr ⟨0, suffix ++ body, .inl rfl, hraw.1, hraw.2⟩

/-- C80, writing.  For every value, header and settings: the document of an Encoder for version 2 and that of one for version
3 (or of a new Encoder) differ in their first five bytes only; if one of them fails so does the other, with the same
error.  Compression with zlib excepted, which version 2 does not have. -/
theorem C80_write (cfg : ECfg) (cs : Codecs) (inp : Heap) (header : Option Val) (val : Val) (w : Nat) (hw : w = 0 ∨ w = 3)
    (hz : ∀ l, cfg.compression ≠ some (.zlib l)) :
    (∃ e, marshalWithHeader { cfg with version := 2 } cs inp header val = .error e ∧
      marshalWithHeader { cfg with version := w } cs inp header val = .error e) ∨
    ∃ dt rest, (dt = 0 ∨ dt = 2) ∧ marshalWithHeader { cfg with version := 2 } cs inp header val = .ok (docOf 2 dt rest) ∧
      marshalWithHeader { cfg with version := w } cs inp header val = .ok (docOf 3 dt rest) := by
  have h := marshalRaw_versions cfg cs inp header val w hw hz
  unfold ECfg.withVersion at h
  unfold marshalWithHeader
  rcases h with ⟨e, h1, h2⟩ | ⟨dt, rest, hd, h1, h2⟩
  · rw [h1, h2]
    cases e <;> exact .inl ⟨_, rfl, rfl⟩
  · rw [h1, h2]
    exact .inr ⟨dt, rest, hd, rfl, rfl⟩

/-- An array of the integers 1 and 2, with a user header of two bytes that holds 7. -/
example : SaneHeaderLength (docOf 2 0 [2, 1, 7, 0x42, 1, 2]) := by
  intro v r hv hi
  obtain ⟨rfl, rfl⟩ := IsVarint.head (by decide) (show (2 :: [1, 7, 0x42, 1, 2] : Bytes) = v ++ r from hv) hi
  decide

example : SameType 2 4 2 ∧ SameType 3 4 3 ∧ ¬ SameType 2 3 3 ∧ SameType 2 3 4 := by
  unfold SameType; decide

example : yieldsInt (unmarshal {} noCodecs (docOf 2 0 [0, 5])) 5 = true ∧ yieldsInt (unmarshal {} noCodecs (docOf 3 0 [0, 5])) 5 = true ∧
    yieldsInt (unmarshal {} noCodecs (docOf 4 0 [0, 5])) 5 = true := by decide +kernel

/-- Marshal of a string, with the header 7, for versions 2 and 3. -/
example : (marshalWithHeader { version := 2 } noCodecs DState.init.heap (some (.int .int 7)) (.str [104, 105])).toOption =
      some (docOf 2 0 [2, 1, 7, 0x27, 2, 104, 105]) ∧
    (marshalWithHeader { version := 3 } noCodecs DState.init.heap (some (.int .int 7)) (.str [104, 105])).toOption =
      some (docOf 3 0 [2, 1, 7, 0x27, 2, 104, 105]) := by decide +kernel

/-- The user header is not covered: offsets in it count from the start of the document, so a COPY item in it can name the
byte that holds the version. -/
theorem C80_header_fails : ¬ ∀ (v w dt : Nat) (rest : Bytes) (cs : Codecs) (cfg : DCfg) (i : Int64), 2 ≤ v ∧ v ≤ 4 → 2 ≤ w ∧ w ≤ 4 →
    dt < 16 → SameType v w dt → SaneHeaderLength (docOf v dt rest) →
    yieldsInt (unmarshalHeader cfg cs (docOf v dt rest)) i = yieldsInt (unmarshalHeader cfg cs (docOf w dt rest)) i := by
  intro h
  have hs : SaneHeaderLength (docOf 2 0 [3, 1, 0x2f, 4, 0]) := by
    intro v r hv hi
    obtain ⟨rfl, rfl⟩ := IsVarint.head (by decide) (show (3 :: [1, 0x2f, 4, 0] : Bytes) = v ++ r from hv) hi
    decide
  have := h 2 3 0 [3, 1, 0x2f, 4, 0] noCodecs {} 2 (by omega) (by omega) (by omega) (by unfold SameType; decide) hs
  revert this
  decide +kernel

/-- The condition on the header length is needed: with a length of 2^64 - 11 the body begins at the byte that holds the
version. -/
theorem C80_length_fails : ¬ ∀ (v w dt : Nat) (rest : Bytes) (cs : Codecs) (cfg : DCfg) (i : Int64), 2 ≤ v ∧ v ≤ 4 → 2 ≤ w ∧ w ≤ 4 →
    dt < 16 → SameType v w dt →
    yieldsInt (unmarshal cfg cs (docOf v dt rest)) i = yieldsInt (unmarshal cfg cs (docOf w dt rest)) i := by
  intro h
  have := h 2 3 0 [0xf5, 0xff, 0xff, 0xff, 0xff, 0xff, 0xff, 0xff, 0xff, 1] noCodecs {} 2 (by omega) (by omega) (by omega)
    (by unfold SameType; decide)
  revert this
  decide +kernel

end Sereal

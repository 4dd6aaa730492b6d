import Verif.Proof.Complete
import Verif.Proof.Header
import Verif.Proof.ApiSafe
/-
Unmarshal on documents: what it accepts and what it yields.
-/
namespace Sereal

theorem headBytes_length (ver dt : Nat) (lf suf : Bytes) :
    (headBytes ver dt lf suf).length = 5 + lf.length + suf.length := by
  simp [headBytes, magicOf_length]; omega

theorem IsDoc.head {b : Bytes} {ver dt : Nat} {lf suf body : Bytes} (h : IsDoc b ver dt lf suf body) :
    Head b ver dt lf (suf ++ body) :=
  ⟨h.version.1, by have := h.version.2; omega, h.doctype, h.varint, h.short, by rw [h.eq]; simp⟩

theorem IsDoc.eq_head {b : Bytes} {ver dt : Nat} {lf suf body : Bytes}
    (h : IsDoc b ver dt lf suf body) : b = headBytes ver dt lf suf ++ body := h.eq

/-- The header of a document as the decoder reads it. -/
theorem IsDoc.bodyStart {b : Bytes} {ver dt : Nat} {lf suf body : Bytes}
    (h : IsDoc b ver dt lf suf body) :
    wrapInt (headerSize + (Head.hdr ver dt lf).suffixSize) = (headBytes ver dt lf suf).length := by
  have hs := h.size
  have hl := headBytes_length ver dt lf suf
  have hb : b.length = (headBytes ver dt lf suf).length + body.length := by rw [h.eq_head]; simp
  have hg := h.len
  have h63 : suf.length < 2 ^ 63 := by omega
  unfold Head.hdr
  dsimp only
  rw [hg, sgn_small h63]
  have h1 : wrapInt ((suf.length : Int) + lf.length) = suf.length + lf.length :=
    wrapInt_small (by omega) (by omega)
  have h2 : ((headerSize : Nat) : Int) = 5 := rfl
  rw [h1, h2, wrapInt_small (by omega) (by omega)]
  omega

/-- What Unmarshal hands to decode. -/
theorem bodyInput_doc {cs : Codecs} {b : Bytes} {ver dt : Nat} {lf suf body body' : Bytes}
    (h : IsDoc b ver dt lf suf body) {dc : Option Compressor}
    (hdc : documentDecompressor ver dt = .ok dc)
    (hb : match dc with
      | none => body' = body
      | some c => decompress cs c body = .ok body') :
    bodyInput cs b = .ok (itemBuf ver (headBytes ver dt lf suf) body') := by
  have hl := headBytes_length ver dt lf suf
  have hbs := h.bodyStart
  unfold bodyInput
  rw [checkHeader_head h.head h.version.2]
  dsimp only
  rw [show (Head.hdr ver dt lf).version = ver from rfl, show (Head.hdr ver dt lf).doctype = dt from rfl,
    hdc]
  dsimp only
  rw [hbs, if_neg (by
    have : b.length = (headBytes ver dt lf suf).length + body.length := by rw [h.eq_head]; simp
    omega), Int.toNat_natCast]
  have fin : ∀ x : Bytes, x = headBytes ver dt lf suf ++ body' →
      (if ver = 1 then .ok (x, (headBytes ver dt lf suf).length)
        else if (headBytes ver dt lf suf).length = 0 then .error (.crash "slice bounds out of range")
        else .ok (x.drop ((headBytes ver dt lf suf).length - 1), 1) : Res (Bytes × Nat)) =
      .ok (itemBuf ver (headBytes ver dt lf suf) body') := by
    rintro x rfl
    unfold itemBuf
    split
    · rfl
    · rw [if_neg (by omega), List.drop_append_of_le_length (by omega)]
  cases dc with
  | none =>
    dsimp only at hb ⊢
    exact fin b (by rw [hb]; exact h.eq_head)
  | some c =>
    dsimp only at hb ⊢
    rw [h.eq_head, List.drop_left, List.take_left, hb]
    exact fin _ rfl

theorem init_pre (c : ViewCfg) :
    Pre c { DState.init with tracked := fun _ => none } (fun _ => none) (· = 0) (.cell 1) .cell .nil := by
  refine ⟨⟨?_, ⟨rfl, rfl⟩, ?_, ?_⟩, ?_, ?_, .cell 1, rfl⟩
  · rintro a rfl; decide
  · intro o; simp
  · intro o t h; cases h
  · decide
  · decide

/-- The result of Unmarshal. -/
theorem unmarshal_ok {cfg : DCfg} {cs : Codecs} {b : Bytes} {h : Heap} {v : Val} :
    unmarshal cfg cs b = .ok (h, v) ↔ ∃ buf i j s', bodyInput cs b = .ok (buf, i) ∧
      decode cfg buf (fuelFor buf.length) i (.cell 1)
        { DState.init with tracked := fun _ => none } = (.ok j, s') ∧
      h = s'.heap ∧ v = s'.heap.cellAt 1 := by
  unfold unmarshal unmarshalHeaderBody
  rw [unmarshalRaw_body]
  cases hb : bodyInput cs b with
  | error e =>
    constructor
    · intro hh
      cases e <;> simp [recovered] at hh
    · rintro ⟨_, _, _, _, hh, _⟩; cases hh
  | ok p =>
    obtain ⟨buf, i⟩ := p
    dsimp only
    unfold decodeBody withTracked
    cases hr : decode cfg buf (fuelFor buf.length) i (.cell 1)
        { DState.init with tracked := fun _ => none } with
    | mk r s1 =>
      cases r with
      | error e =>
        constructor
        · intro hh
          cases e <;> simp [recovered] at hh
        · rintro ⟨_, _, _, _, hh, h2, _⟩
          cases hh
          rw [hr] at h2; cases h2
      | ok j =>
        constructor
        · intro hh
          simp only [recovered, Except.ok.injEq, Prod.mk.injEq] at hh
          exact ⟨buf, i, j, s1, rfl, hr, hh.1.symm, hh.2.symm⟩
        · rintro ⟨_, _, _, _, hh, h2, rfl, rfl⟩
          cases hh
          rw [hr] at h2
          cases h2
          rfl

/-- What Unmarshal accepts is an item, and its result is the view of the item's tree. -/
theorem unmarshal_sound {cfg : DCfg} {cs : Codecs} {b : Bytes} {h : Heap} {v : Val} {buf : Bytes}
    {i : Nat} (hb : bodyInput cs b = .ok (buf, i)) (hu : unmarshal cfg cs b = .ok (h, v)) :
    ∃ t j, Denotes goDialect buf i t j ∧ Shows cfg.view h v t := by
  obtain ⟨buf', i', j, s', hb', hd, rfl, rfl⟩ := unmarshal_ok.1 hu
  rw [hb] at hb'
  cases hb'
  obtain ⟨t, T', g, F', v, A, h1, h2, h3⟩ := decode_sound cfg buf _ i (.cell 1) .cell _ _ _ .nil j s'
    (init_pre cfg.view) hd
  refine ⟨t, j, ⟨T', g⟩, ?_⟩
  have hv : s'.heap.cellAt 1 = v := by unfold Heap.cellAt; rw [show s'.heap.mem 1 = .cell v from h2]
  rw [hv]
  exact h3.shows

/-- Every item with a representable tree is accepted. -/
theorem unmarshal_complete {cfg : DCfg} {cs : Codecs} {b : Bytes} {buf : Bytes} {i j : Nat} {t : Tree}
    (hb : bodyInput cs b = .ok (buf, i)) (hlen : buf.length < 2 ^ 63)
    (hd : Denotes goDialect buf i t j) (hs : Supported cfg.view t) :
    ∃ h v, unmarshal cfg cs b = .ok (h, v) ∧ Shows cfg.view h v t := by
  obtain ⟨T', g⟩ := hd
  obtain ⟨s', h1, F', v, A, h2, h3, h4⟩ := decode_complete (cfg := cfg) hlen g hs (fuelFor buf.length)
    (by unfold need fuelFor; simp; omega) _ _ _ _ (init_pre cfg.view) rfl
  have hv : s'.heap.cellAt 1 = v := by unfold Heap.cellAt; rw [show s'.heap.mem 1 = .cell v from h3]
  refine ⟨s'.heap, v, unmarshal_ok.2 ⟨buf, i, j, s', hb, h1, rfl, hv.symm⟩, h4.shows⟩

theorem bodyInput_raw {cs : Codecs} {b : Bytes} {ver : Nat} {lf suf body : Bytes}
    (h : IsDoc b ver 0 lf suf body) :
    bodyInput cs b = .ok (itemBuf ver (headBytes ver 0 lf suf) body) :=
  bodyInput_doc (dc := none) h rfl rfl

theorem itemBuf_length {ver : Nat} {hd body : Bytes} :
    (itemBuf ver hd body).1.length ≤ hd.length + body.length := by
  unfold itemBuf
  split <;> simp

theorem IsDoc.buf_lt {b : Bytes} {ver dt : Nat} {lf suf body : Bytes}
    (h : IsDoc b ver dt lf suf body) :
    (itemBuf ver (headBytes ver dt lf suf) body).1.length < 2 ^ 63 := by
  have := h.size
  have h2 := @itemBuf_length ver (headBytes ver dt lf suf) body
  have : b.length = (headBytes ver dt lf suf).length + body.length := by rw [h.eq_head]; simp
  omega

theorem itemBuf_append {ver : Nat} {hd body : Bytes} (e : Bytes) :
    itemBuf ver hd (body ++ e) = ((itemBuf ver hd body).1 ++ e, (itemBuf ver hd body).2) := by
  unfold itemBuf
  split <;> simp

theorem itemBuf_start {ver : Nat} {hd body : Bytes} :
    (itemBuf ver hd body).2 ≤ (itemBuf ver hd body).1.length ∨ hd = [] := by
  unfold itemBuf
  split
  · simp
  · cases hd with
    | nil => simp
    | cons a l => left; simp

/-- Tags and varints at concrete positions. -/
theorem TagAt.here {buf : Bytes} {i : Nat} {b : UInt8} (h : buf[i]? = some b)
    (hb : b.toNat % 128 ≠ 0x3f) : TagAt buf i i b :=
  ⟨Nat.le_refl _, fun x h1 h2 => absurd h1 (by omega), h, hb⟩

theorem Vint.here {d : Dialect} {buf : Bytes} {i n : Nat} {b : UInt8} (h : buf[i]? = some b)
    (hb : b.toNat < 128) (hd : d.vint [b] = some n) : Vint d buf i n (i + 1) := by
  refine ⟨[b], hb, by simp, ⟨?_, rfl⟩, hd⟩
  obtain ⟨hl, rfl⟩ := List.getElem?_eq_some_iff.1 h
  rw [List.drop_eq_getElem_cons hl]
  exact ⟨_, rfl⟩

theorem Shows.int_inv {c : ViewCfg} {h : Heap} {v : Val} {z : Int} (hs : Shows c h v (.int z)) :
    (∃ i : Int64, v = .int .int i ∧ i.toInt = z) ∨
      (∃ u : UInt64, v = .uint .uint u ∧ 2 ^ 63 ≤ u.toNat ∧ (u.toNat : Int) = z) := by
  generalize ht : Tree.int z = t at hs
  cases hs <;> cases ht
  · exact .inl ⟨_, rfl, rfl⟩
  · exact .inr ⟨_, rfl, by assumption, rfl⟩

/-- The body inside the buffer that offsets refer to. -/
theorem itemBuf_pre (ver dt : Nat) (lf suf : Bytes) : ∃ pre : Bytes, pre.length ≤ 5 + lf.length + suf.length ∧
    0 < pre.length ∧ (ver ≠ 1 → pre.length = 1) ∧ ∀ body,
      itemBuf ver (headBytes ver dt lf suf) body = (pre ++ body, pre.length) := by
  have hl := headBytes_length ver dt lf suf
  by_cases hv : ver = 1
  · refine ⟨headBytes ver dt lf suf, by omega, by omega, fun h => absurd hv h, fun body => ?_⟩
    unfold itemBuf; rw [if_pos hv]
  · have h1 : ((headBytes ver dt lf suf).drop ((headBytes ver dt lf suf).length - 1)).length = 1 := by
      simp; omega
    refine ⟨_, ?_, ?_, fun _ => h1, fun body => ?_⟩
    · omega
    · omega
    · unfold itemBuf; rw [if_neg hv, h1]

theorem getElem?_pre (pre : Bytes) (b : UInt8) (rest : Bytes) :
    (pre ++ b :: rest)[pre.length]? = some b := by simp

theorem Vint.pre {d : Dialect} {v : Bytes} {n : Nat} (pre rest : Bytes) (hv : IsVarint v)
    (hl : v.length ≤ 10) (hd : d.vint v = some n) :
    Vint d (pre ++ v ++ rest) pre.length n (pre.length + v.length) := by
  refine ⟨v, hv, hl, ⟨?_, rfl⟩, hd⟩
  rw [List.append_assoc, List.drop_left]
  exact ⟨_, rfl⟩

theorem Span.pre (pre s rest : Bytes) :
    Span (pre ++ s ++ rest) pre.length s (pre.length + s.length) := by
  refine ⟨?_, rfl⟩
  rw [List.append_assoc, List.drop_left]
  exact ⟨_, rfl⟩

theorem G.trackedC {d : Dialect} {buf : Bytes} {cd : Bool} {i : Nat} {b : UInt8} {T : Seen} {t : Tree}
    {j : Nat} {T' : Seen} (c : TagC) (h : buf[i]? = some b) (hb : 128 ≤ b.toNat)
    (hp : b.toNat % 128 ≠ 0x3f) (hc : classify (b.toNat - 128) = c)
    (g : G d buf cd (.body c) (i + 1) (T.put i none) (.tree t) j T') :
    G d buf cd .item i T (.tree t) j (T'.close i t) :=
  .tracked (.here h hp) hb (hc ▸ g)

theorem G.plainC {d : Dialect} {buf : Bytes} {cd : Bool} {i : Nat} {b : UInt8} {T : Seen} {t : Tree}
    {j : Nat} {T' : Seen} (c : TagC) (h : buf[i]? = some b) (hb : b.toNat < 128)
    (hp : b.toNat % 128 ≠ 0x3f) (hc : classify b.toNat = c)
    (g : G d buf cd (.body c) (i + 1) T (.tree t) j T') :
    G d buf cd .item i T (.tree t) j T' :=
  .plain (.here h hp) hb (hc ▸ g)

end Sereal

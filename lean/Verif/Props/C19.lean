import Verif.Proof.ApiDoc
import Verif.Proof.Fails
/-
C19: COPY cannot loop and cannot look ahead.
C20: REFP and ALIAS only reach items already seen and tracked.
-/
namespace Sereal

theorem unmarshal_err {cfg : DCfg} {cs : Codecs} {b buf : Bytes} {i : Nat} {e : Err} {s' : DState}
    (hb : bodyInput cs b = .ok (buf, i))
    (h : decode cfg buf (fuelFor buf.length) i (.cell 1)
      { DState.init with tracked := fun _ => none } = (.error (.err e), s')) :
    unmarshal cfg cs b = .error (.err e) := by
  unfold unmarshal unmarshalHeaderBody
  rw [unmarshalRaw_body, hb]
  dsimp only
  unfold decodeBody withTracked
  rw [h]
  rfl

theorem unmarshal_bad {cfg : DCfg} {cs : Codecs} {b buf : Bytes} {i : Nat} {off : Offence}
    (hb : bodyInput cs b = .ok (buf, i)) (hlen : buf.length < 2 ^ 63)
    (h : BadRef (Supported cfg.view) buf off false .item i (fun _ => none)) :
    ∃ c, Corr off c ∧ unmarshal cfg cs b = .error (.err (.corrupt c)) := by
  obtain ⟨c, s', hc, hd⟩ := decode_bad (cfg := cfg) hlen h (fuelFor buf.length)
    (by unfold need fuelFor; simp; omega) _ _ _ _ (init_pre cfg.view) rfl
  exact ⟨c, hc, unmarshal_err hb hd⟩

/-- If, reading a raw document in order, the first offence is a COPY tag (as an item, a key, a class
name, a pattern or modifiers) that names its own or a later position or is reached while expanding
another COPY, Unmarshal returns a corrupt-document error: nested COPY or bad offset. -/
theorem C19 (cfg : DCfg) (cs : Codecs) (b : Bytes) (ver : Nat) (lenField suffix body : Bytes)
    (hd : IsDoc b ver 0 lenField suffix body)
    (h : BadRef (Supported cfg.view) (itemBuf ver (headBytes ver 0 lenField suffix) body).1 .copy false .item
      (itemBuf ver (headBytes ver 0 lenField suffix) body).2 (fun _ => none)) :
    unmarshal cfg cs b = .error (.err (.corrupt .nestedCOPY)) ∨
    unmarshal cfg cs b = .error (.err (.corrupt .badOffset)) := by
  obtain ⟨c, hc, hu⟩ := unmarshal_bad (bodyInput_raw hd) hd.buf_lt h
  rcases hc with rfl | rfl
  · exact .inl hu
  · exact .inr hu

/-- Whatever stands before the offence (cyclic references, values without a Go representation), the
document is not accepted. -/
theorem C19_rejected (cfg : DCfg) (cs : Codecs) (b : Bytes) (ver : Nat) (lenField suffix body : Bytes)
    (off : Offence) (hd : IsDoc b ver 0 lenField suffix body)
    (h : BadRef (fun _ => True) (itemBuf ver (headBytes ver 0 lenField suffix) body).1 off false .item
      (itemBuf ver (headBytes ver 0 lenField suffix) body).2 (fun _ => none)) :
    ∀ r, unmarshal cfg cs b ≠ .ok r := by
  rintro ⟨hp, v⟩ hu
  obtain ⟨t, j, ⟨T, g⟩, _⟩ := unmarshal_sound (bodyInput_raw hd) hu
  exact h.no _ _ _ g

/-- If the first offence is a REFP or ALIAS whose offset is not the position of a tag that carried the
track flag and has been visited, Unmarshal returns a corrupt-document error: bad offset or untracked
offset. -/
theorem C20 (cfg : DCfg) (cs : Codecs) (b : Bytes) (ver : Nat) (lenField suffix body : Bytes)
    (hd : IsDoc b ver 0 lenField suffix body)
    (h : BadRef (Supported cfg.view) (itemBuf ver (headBytes ver 0 lenField suffix) body).1 .ref false .item
      (itemBuf ver (headBytes ver 0 lenField suffix) body).2 (fun _ => none)) :
    unmarshal cfg cs b = .error (.err (.corrupt .badOffset)) ∨
    unmarshal cfg cs b = .error (.err (.corrupt .untrackedOffsetREFP)) ∨
    unmarshal cfg cs b = .error (.err (.corrupt .untrackedOffsetAlias)) := by
  obtain ⟨c, hc, hu⟩ := unmarshal_bad (bodyInput_raw hd) hd.buf_lt h
  rcases hc with rfl | rfl | rfl
  · exact .inl hu
  · exact .inr (.inl hu)
  · exact .inr (.inr hu)

/-- Conversely, in an accepted document every REFP and ALIAS leads to an item seen before: the grammar
has no other case (`G.refp`, `G.refpOpen`, `G.alias`, `G.aliasOpen`). -/
theorem C20_accepted (cfg : DCfg) (cs : Codecs) (b : Bytes) (ver : Nat) (lenField suffix body : Bytes)
    (r : Heap × Val) (off : Offence) (hd : IsDoc b ver 0 lenField suffix body)
    (hu : unmarshal cfg cs b = .ok r) :
    ¬ BadRef (fun _ => True) (itemBuf ver (headBytes ver 0 lenField suffix) body).1 off false .item
      (itemBuf ver (headBytes ver 0 lenField suffix) body).2 (fun _ => none) :=
  fun h => C19_rejected cfg cs b ver lenField suffix body off hd h r hu

/-- Non-vacuity: in `[ 5, COPY to itself ]` the COPY is reached while expanding itself. -/
example (c : ViewCfg) : BadRef (Supported c) [0, 0x42, 5, 0x2f, 3] .copy false .item 1 (fun _ => none) :=
  .plain (.here rfl (by decide)) (by decide) (.arrayref (by decide)
    (.itemsTail (.plain (.here rfl (by decide)) (by decide) .int) .int
      (.itemsHead (.plain (.here rfl (by decide)) (by decide)
        (.copyIn (.here (n := 3) rfl (by decide) (by decide)) (by decide)
          (.plain (.here rfl (by decide)) (by decide) (.copyNested rfl)))))))

/-- A key that is a COPY of a later position. -/
example (c : ViewCfg) : BadRef (Supported c) [0, 0x51, 0x2f, 5, 1] .copy false .item 1 (fun _ => none) :=
  .plain (.here rfl (by decide)) (by decide) (.hashref (by decide)
    (.pairsKey rfl (.ahead (.here rfl (by decide)) (by decide)
      (.here (n := 5) rfl (by decide) (by decide)) (by decide))))

/-- A REFP to an item that has been seen but did not carry the track flag. -/
example (c : ViewCfg) : BadRef (Supported c) [0, 0x42, 5, 0x29, 2] .ref false .item 1 (fun _ => none) :=
  .plain (.here rfl (by decide)) (by decide) (.arrayref (by decide)
    (.itemsTail (.plain (.here rfl (by decide)) (by decide) .int) .int
      (.itemsHead (.plain (.here rfl (by decide)) (by decide)
        (.refp rfl (.here (n := 2) rfl (by decide) (by decide)) (.inr rfl))))))

end Sereal

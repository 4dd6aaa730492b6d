import Verif.Proof.ApiDoc
import Verif.Props.C13
import Verif.Props.C16
/-
C15: truncated documents are rejected.
-/
namespace Sereal

theorem bodyInput_head {cs : Codecs} {b buf : Bytes} {i : Nat} (h : bodyInput cs b = .ok (buf, i)) :
    ∃ hd, checkHeader b = .ok hd := by
  unfold bodyInput at h
  cases h1 : checkHeader b with
  | error e => rw [h1] at h; cases h
  | ok hd => exact ⟨hd, rfl⟩

theorem bodyInput_le {cs : Codecs} {b buf : Bytes} {i : Nat}
    (hraw : ∃ t : UInt8, b[4]? = some t ∧ t.toNat / 16 = 0) (h : bodyInput cs b = .ok (buf, i)) :
    i ≤ buf.length := by
  have hd := h
  unfold bodyInput at h
  cases h1 : checkHeader b with
  | error e => rw [h1] at h; cases h
  | ok hd =>
    rw [h1] at h
    obtain ⟨_, _, _, ⟨t, ht, hdt, _⟩, _⟩ := checkHeader_ok h1
    obtain ⟨t', ht', h0⟩ := hraw
    rw [ht] at ht'
    cases ht'
    have hd0 : hd.doctype = 0 := by rw [hdt, shift4]; exact h0
    have h2 : documentDecompressor hd.version hd.doctype = .ok none := by
      rw [hd0]; rfl
    dsimp only at h
    rw [h2] at h
    dsimp only at h
    split at h
    · cases h
    · rename_i hb
      split at h
      · cases h; omega
      · split at h
        · cases h
        · cases h; rw [List.length_drop]; omega

/-- If the body of a raw document is one item that ends at the end of the document, Unmarshal of every
strict prefix of the document returns an error (and does not crash).
(By `C17_partial`, whatever Unmarshal accepts has such an item; by C16, only the end of the item
matters.) -/
theorem C15 (cfg : DCfg) (cs : Codecs) (b : Bytes) (ver : Nat) (lenField suffix body : Bytes) (t : Tree)
    (hd : IsDoc b ver 0 lenField suffix body)
    (ht : Denotes goDialect (itemBuf ver (headBytes ver 0 lenField suffix) body).1
      (itemBuf ver (headBytes ver 0 lenField suffix) body).2 t
      (itemBuf ver (headBytes ver 0 lenField suffix) body).1.length)
    (p e : Bytes) (hp : b = p ++ e) (he : e ≠ []) :
    ∃ er, unmarshal cfg cs p = .error (.err er) := by
  have hb4 : b[4]? = some (UInt8.ofNat (ver + 16 * 0)) := by
    have := magicOf_length ver
    rw [hd.eq]
    simp [this]
  have hver : (UInt8.ofNat (ver + 16 * 0)).toNat / 16 = 0 := by
    have := hd.version
    rw [UInt8.toNat_ofNat']; omega
  have hraw : ∀ x, p[4]? = some x → x.toNat / 16 = 0 := by
    intro x hx
    rw [hp, List.getElem?_append_left (by
      exact (List.getElem?_eq_some_iff.1 hx).1), hx] at hb4
    cases hb4
    exact hver
  have hsane : SaneHeaderLength p := by
    intro v rest h1 h2
    have hlen : p.drop 5 = v ++ rest := h1
    have h5 : 5 ≤ p.length := by
      have := congrArg List.length hlen
      cases v with
      | nil => simp [IsVarint] at h2
      | cons a l => simp at this; omega
    have hb5 : b.drop 5 = v ++ (rest ++ e) := by
      rw [hp, List.drop_append_of_le_length h5, hlen, List.append_assoc]
    have hb5' : b.drop 5 = lenField ++ (suffix ++ body) := by
      have := magicOf_length ver
      rw [hd.eq]
      simp [List.drop_append, this]
    obtain ⟨rfl, _⟩ := isVarint_prefix_unique h2 hd.varint (hb5.symm.trans hb5')
    rw [hd.len]
    have := hd.size
    have h3 : b.length = (headBytes ver 0 lenField suffix).length + body.length := by rw [hd.eq_head]; simp
    have := headBytes_length ver 0 lenField suffix
    omega
  have hz : SaneZlibSize p := by
    rintro ⟨x, hx, h3⟩
    rw [hraw x hx] at h3; cases h3
  have hnc := C13_partial cfg cs p none (some (.cell 1)) DState.init hsane (fun _ => hz)
    (fun h => by cases h) (fun _ h => by cases h)
    (fun l h => by cases h; exact ⟨by decide, rfl⟩) (fun _ _ h => by cases h)
  cases hu : unmarshal cfg cs p with
  | error er =>
    unfold unmarshal at hu
    rcases hnc with hnc | ⟨er', hnc⟩
    · cases hr : unmarshalHeaderBody cfg cs p none (some (.cell 1)) DState.init with
      | mk q s' => rw [hr] at hu hnc; dsimp only at hnc; rw [hnc] at hu; cases hu
    · cases hr : unmarshalHeaderBody cfg cs p none (some (.cell 1)) DState.init with
      | mk q s' =>
        rw [hr] at hu hnc; dsimp only at hnc; rw [hnc] at hu
        cases hu; exact ⟨er', rfl⟩
  | ok r =>
    exfalso
    obtain ⟨h, v⟩ := r
    obtain ⟨buf, i, j, s', hbi, _⟩ := unmarshal_ok.1 hu
    obtain ⟨t', j', ⟨T', g⟩, _⟩ := unmarshal_sound hbi hu
    obtain ⟨hdr, hck⟩ := bodyInput_head hbi
    obtain ⟨_, _, _, ⟨x, hx, _⟩, _⟩ := checkHeader_ok hck
    have hle := bodyInput_le ⟨x, hx, hraw x hx⟩ hbi
    have happ := bodyInput_append e ⟨x, hx, hraw x hx⟩ hbi
    rw [← hp, bodyInput_raw hd] at happ
    cases happ' : itemBuf ver (headBytes ver 0 lenField suffix) body with
    | mk B I =>
      rw [happ'] at happ ht
      cases happ
      obtain ⟨T, g0⟩ := ht
      obtain ⟨_, hj, _⟩ := (g.append e).unique g0
      have := g.lt.2 hle
      rw [List.length_append] at hj
      have : 0 < e.length := List.length_pos_iff.2 he
      omega

/-- Non-vacuity: the document [1, 2] (version 3) and its item. -/
example : IsDoc [0x3d, 0xf3, 0x72, 0x6c, 3, 0, 0x2b, 2, 1, 2] 3 0 [0] [] [0x2b, 2, 1, 2] ∧
    Denotes goDialect (itemBuf 3 (headBytes 3 0 [0] []) [0x2b, 2, 1, 2]).1
      (itemBuf 3 (headBytes 3 0 [0] []) [0x2b, 2, 1, 2]).2 (.arr [.int 1, .int 2])
      (itemBuf 3 (headBytes 3 0 [0] []) [0x2b, 2, 1, 2]).1.length := by
  refine ⟨⟨by decide, by omega, by omega, by simp [IsVarint], by simp, by decide, by decide⟩, ?_⟩
  show Denotes goDialect [0, 0x2b, 2, 1, 2] 1 _ 5
  exact ⟨_, .plain (.here rfl (by decide)) (by decide) (.array (n := 2) (.here rfl (by decide) (by decide))
    (by decide) (.itemsCons (.plain (.here rfl (by decide)) (by decide) .int)
      (.itemsCons (.plain (.here rfl (by decide)) (by decide) .int) .itemsNil)))⟩

end Sereal

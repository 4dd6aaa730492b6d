import Verif.Proof.Shorter
import Verif.Props.C01
/-
C77: deduplication of names does not make documents longer.
-/
namespace Sereal

theorem headerSuffix_shorter {cfg : ECfg} (hord : ∀ n ks, (cfg.ord n ks).Perm ks) {inp : Heap} {header : Option Val} {suf suf' : Bytes} {N : Nat}
    (e : headerSuffix { cfg with disableDedup := false } inp header = .ok suf)
    (e' : headerSuffix { cfg with disableDedup := true } inp header = .ok suf') (hN : suf.length ≤ N)
    (hr : ∀ hv, header = some hv → RoomyNames cfg inp hv N) : suf.length ≤ suf'.length := by
  cases header with
  | none => cases e; cases e'; exact Nat.le_refl _
  | some hv =>
    unfold headerSuffix at e e'
    dsimp only at e e'
    by_cases hver : cfg.ver ≥ 2
    · change (if cfg.ver ≥ 2 then _ else _) = _ at e
      change (if cfg.ver ≥ 2 then _ else _) = _ at e'
      rw [if_pos hver] at e e'
      rcases h : encodeAfter { cfg with disableDedup := false } inp [1] hv with er | w
      · rw [h] at e; cases e
      · rcases h' : encodeAfter { cfg with disableDedup := true } inp [1] hv with er | w'
        · rw [h'] at e'; cases e'
        · rw [h] at e
          rw [h'] at e'
          cases e
          cases e'
          simp only [List.length_append, List.length_cons] at hN ⊢
          have h1 := lean_after hord (Nat.le_refl _) h h' (N := N) (by simp only [List.length_cons, List.length_nil]; omega) (hr hv rfl)
          simp only [List.length_cons, List.length_nil] at h1
          have h2 := varint_length_mono (n := 1 + w.length) (m := 1 + w'.length) (by omega)
          omega
    · change (if cfg.ver ≥ 2 then _ else _) = _ at e
      change (if cfg.ver ≥ 2 then _ else _) = _ at e'
      rw [if_neg hver] at e e'
      cases e; cases e'; exact Nat.le_refl _

theorem marshalWithHeader_parts {cfg : ECfg} {cs : Codecs} {inp : Heap} {header : Option Val} {body : Val} {doc : Bytes}
    (hc : cfg.compression = none) (e : marshalWithHeader cfg cs inp header body = .ok doc) :
    ∃ suf w pre, headerSuffix cfg inp header = .ok suf ∧ encodeAfter cfg inp pre body = .ok w ∧
      (cfg.ver = 1 ∧ pre.length = 5 + suf.length ∨ cfg.ver ≠ 1 ∧ pre.length = 1) ∧ doc.length = 5 + suf.length + w.length := by
  have e1 : marshalRaw cfg cs inp header body = .ok doc := by
    unfold marshalWithHeader at e
    split at e
    · cases e
    · exact e
  unfold marshalRaw at e1
  dsimp only at e1
  rcases h : headerSuffix cfg inp header with er | suf
  · rw [h] at e1; cases e1
  · rw [h] at e1
    change (encodeAfter cfg inp _ body >>= _) = _ at e1
    generalize hp : (if cfg.ver = 1 then magicFor cfg.ver ++ (UInt8.ofNat cfg.ver ||| UInt8.ofNat serealRaw <<< 4) :: suf else [0]) = pre at e1
    rcases h' : encodeAfter cfg inp pre body with er | w
    · rw [h'] at e1; cases e1
    · rw [h', hc] at e1
      cases e1
      have h5 : (magicFor cfg.ver).length = 4 := rfl
      refine ⟨suf, w, pre, rfl, h', ?_, ?_⟩
      · subst hp
        by_cases hv : cfg.ver = 1
        · rw [if_pos hv, List.length_append, h5, List.length_cons]; exact .inl ⟨hv, by omega⟩
        · rw [if_neg hv]; exact .inr ⟨hv, rfl⟩
      · rw [List.length_append, List.length_append, h5, List.length_cons]; omega

/-- The claim for MarshalWithHeader without compression, for documents in which every name has room for an offset into the document
(`RoomyNames`): keys and field names of n bytes have room in documents of up to 2^(7(n+1)) bytes, class names of n bytes in
documents of up to 2^(7n).  E.g. up to 16384 bytes: keys of at least one byte, class names of at least two. -/
theorem C77_partial (cfg : ECfg) (cs : Codecs) (inp : Heap) (header : Option Val) (body : Val) (doc doc' : Bytes)
    (hord : ∀ n ks, (cfg.ord n ks).Perm ks) (hc : cfg.compression = none)
    (e : marshalWithHeader { cfg with disableDedup := false } cs inp header body = .ok doc)
    (e' : marshalWithHeader { cfg with disableDedup := true } cs inp header body = .ok doc')
    (hb : RoomyNames cfg inp body doc.length) (hh : ∀ hv, header = some hv → RoomyNames cfg inp hv doc.length) :
    doc.length ≤ doc'.length := by
  obtain ⟨suf, w, pre, h1, h2, h3, h4⟩ := marshalWithHeader_parts (cfg := { cfg with disableDedup := false }) hc e
  obtain ⟨suf', w', pre', h1', h2', h3', h4'⟩ := marshalWithHeader_parts (cfg := { cfg with disableDedup := true }) hc e'
  have hs := headerSuffix_shorter hord h1 h1' (N := doc.length) (by omega) hh
  have hp : pre.length ≤ pre'.length := by
    rcases h3 with ⟨a, b⟩ | ⟨a, b⟩ <;> rcases h3' with ⟨a', b'⟩ | ⟨a', b'⟩
    · omega
    · exact (a' a).elim
    · exact (a a').elim
    · omega
  have hw := lean_after hord hp h2 h2' (N := doc.length) (by rcases h3 with ⟨-, b⟩ | ⟨-, b⟩ <;> omega) hb
  rcases h3 with ⟨a, b⟩ | ⟨a, b⟩ <;> rcases h3' with ⟨a', b'⟩ | ⟨a', b'⟩
  · omega
  · exact (a' a).elim
  · exact (a a').elim
  · omega

/-! Examples. -/

namespace Dedup

/-- `[]interface{}{m, m, data}` with the map `m`, at 5, and 126 zero bytes. -/
def maps (k : Bytes) : Heap :=
  { mem := fun a => if a = 1 then .cell (.bin (List.replicate 126 0)) else if a = 2 ∨ a = 3 then .cell (.smap 5)
      else if a = 5 then .mp [(k, .nil)] else .cell .nil, next := 6 }

/-- The length of the document, with or without deduplication. -/
def size (k : Bytes) (disable : Bool) : Nat :=
  match marshal { disableDedup := disable } noCodecs (maps k) (.slice 1 3) with
  | .ok doc => doc.length
  | _ => 0

/-- A key of ten bytes: the second occurrence takes three bytes instead of twelve. -/
example : size [104, 101, 108, 108, 111, 119, 111, 114, 108, 100] false + 9 = size [104, 101, 108, 108, 111, 119, 111, 114, 108, 100] true := by
  decide +kernel

/-- An empty key takes two bytes, the reference to it three. -/
theorem longer : size [] false = size [] true + 1 := by decide +kernel

/-- The names of the first example have room: the theorem applies to it. -/
theorem roomy (k : Bytes) (hk : k ≠ []) : RoomyNames {} (maps k) (.slice 1 3) (2 ^ 14) := by
  have vals : ∀ u, ReachesVal {} (maps k) (.slice 1 3) u → u = .slice 1 3 ∨ u = .bin (List.replicate 126 0) ∨ u = .smap 5 ∨ u = .nil := by
    intro u hu
    induction hu with
    | refl => exact .inl rfl
    | step _ hl ih =>
      rcases ih with rfl | rfl | rfl | rfl
      · rcases hl with hl | hl | ⟨a, ho, -⟩
        · cases hl with
          | @elem _ _ i hi =>
            have : i = 0 ∨ i = 1 ∨ i = 2 := by omega
            rcases this with rfl | rfl | rfl
            · exact .inr (.inl rfl)
            · exact .inr (.inr (.inl rfl))
            · exact .inr (.inr (.inl rfl))
        · cases hl
        · rcases ho with ho | ⟨ho, -⟩ <;> cases ho
      · rcases hl with hl | hl | ⟨a, ho, -⟩
        · cases hl
        · cases hl
        · rcases ho with ho | ⟨ho, -⟩ <;> cases ho
      · rcases hl with hl | hl | ⟨a, ho, -⟩
        · cases hl with
          | entry he =>
            change (if _ then some Val.nil else none) = _ at he
            split at he
            · cases he; exact .inr (.inr (.inr rfl))
            · cases he
        · cases hl
        · rcases ho with ho | ⟨ho, -⟩ <;> cases ho
      · rcases hl with hl | hl | ⟨a, ho, -⟩
        · cases hl
        · cases hl
        · rcases ho with ho | ⟨ho, -⟩ <;> cases ho
  intro u n hu hn
  rcases vals u hu with rfl | rfl | rfl | rfl
  · cases hn
  · cases hn
  · cases hn with
    | @key _ k' _ he =>
      change (if k = k' then some Val.nil else none) = _ at he
      split at he
      · next e =>
        subst e
        have : 1 ≤ k.length := by
          cases k with
          | nil => exact (hk rfl).elim
          | cons => simp
        exact Nat.pow_le_pow_right (by omega) (by omega)
      · cases he
  · cases hn

example (doc doc' : Bytes) (e : marshal { disableDedup := false } noCodecs (maps [104, 105]) (.slice 1 3) = .ok doc)
    (e' : marshal { disableDedup := true } noCodecs (maps [104, 105]) (.slice 1 3) = .ok doc') (h : doc.length ≤ 2 ^ 14) : doc.length ≤ doc'.length :=
  C77_partial {} noCodecs (maps [104, 105]) none (.slice 1 3) doc doc' (fun _ _ => .refl _) rfl e e'
    (fun u n hu hn => Nat.le_trans h (roomy _ (by simp) u n hu hn)) (fun _ h => by cases h)

end Dedup

/-- The full claim is false: with an empty key the document becomes longer. -/
theorem C77_fails : ¬ ∀ (cfg : ECfg) (cs : Codecs) (inp : Heap) (body : Val) (doc doc' : Bytes),
    (∀ n ks, (cfg.ord n ks).Perm ks) → cfg.compression = none →
    marshal { cfg with disableDedup := false } cs inp body = .ok doc →
    marshal { cfg with disableDedup := true } cs inp body = .ok doc' → doc.length ≤ doc'.length := by
  intro h
  have h1 := Dedup.longer
  unfold Dedup.size at h1
  have h2 : Dedup.size [] true ≠ 0 := by decide +kernel
  unfold Dedup.size at h2
  rcases e : marshal { disableDedup := false } noCodecs (Dedup.maps []) (.slice 1 3) with er | doc
  · rw [e] at h1
    dsimp only at h1
    omega
  · rcases e' : marshal { disableDedup := true } noCodecs (Dedup.maps []) (.slice 1 3) with er | doc'
    · rw [e'] at h2
      exact (h2 rfl).elim
    · rw [e, e'] at h1
      dsimp only at h1
      have := h {} noCodecs (Dedup.maps []) (.slice 1 3) doc doc' (fun _ _ => .refl _) rfl e e'
      omega

end Sereal

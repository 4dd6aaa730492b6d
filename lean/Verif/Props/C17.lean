import Verif.Proof.ApiDoc
/-
C17: what Unmarshal accepts is a document of the format, and the result is what the document denotes.
-/
namespace Sereal

/-- The full claim: if Unmarshal of a raw document into a nil `interface{}` succeeds, its body is an
item of the specified grammar and the result is the Go view of the tree the grammar assigns.
(REFP and ALIAS are included; only references to enclosing items are left unspecified by `Shows`.) -/
def AcceptsOnlyGrammar : Prop :=
  ∀ (cfg : DCfg) (cs : Codecs) (b : Bytes) (ver : Nat) (lenField suffix body : Bytes) (h : Heap) (v : Val),
    IsDoc b ver 0 lenField suffix body → unmarshal cfg cs b = .ok (h, v) →
    ∃ t j, Denotes specDialect (itemBuf ver (headBytes ver 0 lenField suffix) body).1
      (itemBuf ver (headBytes ver 0 lenField suffix) body).2 t j ∧ Shows cfg.view h v t

/-- What holds.  Missing from the full claim: the grammar is `goDialect`, which differs from the
specification in that even ZIGZAG payloads denote negative numbers, varints are taken modulo 2^64 and
a COPY inside a copied item is no key.  Where the document stays clear of these (`coreDialect`),
`C17_core` gives the full claim. -/
theorem C17_partial (cfg : DCfg) (cs : Codecs) (b : Bytes) (ver : Nat) (lenField suffix body : Bytes)
    (h : Heap) (v : Val) (hd : IsDoc b ver 0 lenField suffix body)
    (hu : unmarshal cfg cs b = .ok (h, v)) :
    ∃ t j, Denotes goDialect (itemBuf ver (headBytes ver 0 lenField suffix) body).1
      (itemBuf ver (headBytes ver 0 lenField suffix) body).2 t j ∧ Shows cfg.view h v t :=
  unmarshal_sound (bodyInput_raw hd) hu

/-- On documents of the part common to the specification and the decoder, the result is the view of
the one tree the specification assigns. -/
theorem C17_core (cfg : DCfg) (cs : Codecs) (b : Bytes) (ver : Nat) (lenField suffix body : Bytes)
    (h : Heap) (v : Val) (hd : IsDoc b ver 0 lenField suffix body)
    (hu : unmarshal cfg cs b = .ok (h, v)) (t : Tree) (j : Nat)
    (ht : Denotes coreDialect (itemBuf ver (headBytes ver 0 lenField suffix) body).1
      (itemBuf ver (headBytes ver 0 lenField suffix) body).2 t j) :
    Denotes specDialect (itemBuf ver (headBytes ver 0 lenField suffix) body).1
      (itemBuf ver (headBytes ver 0 lenField suffix) body).2 t j ∧
    (∀ t' j', Denotes specDialect (itemBuf ver (headBytes ver 0 lenField suffix) body).1
      (itemBuf ver (headBytes ver 0 lenField suffix) body).2 t' j' → t' = t ∧ j' = j) ∧
    Shows cfg.view h v t := by
  obtain ⟨T, g⟩ := ht
  obtain ⟨t', j', ⟨T', g'⟩, hs⟩ := C17_partial cfg cs b ver lenField suffix body h v hd hu
  obtain ⟨e, _, _⟩ := g.core_go.unique g'
  cases e
  refine ⟨⟨T, g.core_spec⟩, ?_, hs⟩
  rintro t' j' ⟨T', g''⟩
  obtain ⟨e, e2, _⟩ := g''.unique g.core_spec
  cases e
  exact ⟨rfl, e2⟩

/-- Version 2, a ZIGZAG item with payload 2, which the specification reads as 1. -/
def docZigzag : Bytes := [0x3d, 0x73, 0x72, 0x6c, 2, 0, 0x21, 2]

theorem docZigzag_isDoc : IsDoc docZigzag 2 0 [0] [] [0x21, 2] where
  eq := by decide
  version := by omega
  doctype := by omega
  varint := by simp [IsVarint]
  short := by simp
  len := by decide
  size := by decide

theorem docZigzag_spec : Denotes specDialect [0, 0x21, 2] 1 (.int 1) 3 :=
  ⟨_, .plain (.here rfl (by decide)) (by decide)
    (.zigzag (z := 1) (n := 2) (.here rfl (by decide) (by decide)) (by decide))⟩

theorem docZigzag_go : Denotes goDialect [0, 0x21, 2] 1 (.int (-2)) 3 :=
  ⟨_, .plain (.here rfl (by decide)) (by decide)
    (.zigzag (z := -2) (n := 2) (.here rfl (by decide) (by decide)) (by decide))⟩

/-- It is accepted and decodes to -2. -/
theorem docZigzag_unmarshal (cfg : DCfg) (cs : Codecs) :
    ∃ h, unmarshal cfg cs docZigzag = .ok (h, .int .int (-2)) := by
  obtain ⟨h, v, h1, h2⟩ := unmarshal_complete (cfg := cfg) (bodyInput_raw (cs := cs) docZigzag_isDoc)
    docZigzag_isDoc.buf_lt docZigzag_go .int
  rcases h2.int_inv with ⟨i, rfl, hi⟩ | ⟨u, rfl, hu, hi⟩
  · have : i = -2 := by
      rw [← Int64.toInt_inj]; exact hi
    exact ⟨h, by rw [h1, this]⟩
  · exfalso; omega

/-- The code does not satisfy the full claim. -/
theorem C17_fails : ¬ AcceptsOnlyGrammar := by
  intro hall
  let cs : Codecs := ⟨fun _ => .ok [], fun _ => .ok [], fun _ _ => .ok [], fun _ => .ok (),
    fun _ => .ok [], fun _ _ => .ok [], fun _ => .ok []⟩
  obtain ⟨h, hu⟩ := docZigzag_unmarshal {} cs
  obtain ⟨t, j, ⟨T, g⟩, hs⟩ := hall {} cs docZigzag 2 [0] [] [0x21, 2] h _ docZigzag_isDoc hu
  obtain ⟨T', g'⟩ := docZigzag_spec
  obtain ⟨e, _, _⟩ := g.unique g'
  cases e
  rcases hs.int_inv with ⟨i, hv, hi⟩ | ⟨u, hv, _⟩
  · cases hv; revert hi; decide
  · cases hv

/-- Non-vacuity of `C17_core`: {a => [1, 2]} with the reference made explicit, body in `coreDialect`. -/
example : Denotes coreDialect [0, 0x28, 0x2a, 1, 0x61, 0x61, 0x42, 1, 2] 1
    (.ref (.map [([0x61], .ref (.arr [.int 1, .int 2]))])) 9 :=
  ⟨_, .plain (.here rfl (by decide)) (by decide) (.refn
    (.plain (.here rfl (by decide)) (by decide) (.hash (n := 1) (.here rfl (by decide) (by decide)) (by decide)
      (.pairsCons (.lit (.short (n := 1) (.here rfl (by decide)) (by decide) ⟨by decide, rfl⟩ rfl))
        (.plain (.here rfl (by decide)) (by decide) (.arrayref
          (.itemsCons (.plain (.here rfl (by decide)) (by decide) .int)
            (.itemsCons (.plain (.here rfl (by decide)) (by decide) .int) .itemsNil))))
        .pairsNil))))⟩

end Sereal

import Verif.Proof.Again
import Verif.Props.C17
import Verif.Props.C18
import Verif.Props.C66
/-
C73: decoded data can be marshalled again, and arrives unchanged.
-/
namespace Sereal

/-- The full claim: whatever Unmarshal yields, Marshal (with the default limit) has a form for, and Unmarshal of
the new document yields the same data. -/
def DecodedDataReturns : Prop :=
  ∀ (dcfg : DCfg) (cfg : ECfg) (cs : Codecs) (b : Bytes) (h : Heap) (v : Val), cfg.version ≤ 3 →
    (∀ n ks, (cfg.ord n ks).Perm ks) → cfg.compression = none → unmarshal dcfg cs b = .ok (h, v) →
    ∃ doc, marshal cfg cs h v = .ok doc ∧
      ∃ h' v', unmarshal dcfg cs doc = .ok (h', v') ∧ Iso h h' v v'

/-- What holds.  `b` is any document (compressed or not) that Unmarshal accepts, `t` the tree its body denotes and `v`
the result.  If `t` is `Storable` within the recursion limit `n` of an Encoder, then Marshal succeeds on `v` and
Unmarshal of the new document yields the same data.
* Without PerlCompat in the decoder nothing else is needed.
* With it, references are pointers: no pointer may be met twice in `v`, and none may be an *interface{} holding a
  string (`Handled`).  If the encoder has PerlCompat too, arrays and hashes have to be behind references.
Missing: documents with REFP and FREEZE, for which the claim is false. -/
theorem C73_partial (dcfg : DCfg) (cs : Codecs) (b : Bytes) (h : Heap) (v : Val) (hu : unmarshal dcfg cs b = .ok (h, v)) :
    ∃ t, Shows dcfg.view h v t ∧
      (∀ ver lf suf body, IsDoc b ver 0 lf suf body →
        ∃ j, Denotes goDialect (itemBuf ver (headBytes ver 0 lf suf) body).1 (itemBuf ver (headBytes ver 0 lf suf) body).2 t j) ∧
      ∀ (cfg : ECfg) (n : Nat), cfg.version ≤ 3 → (∀ n ks, (cfg.ord n ks).Perm ks) → cfg.compression = none → Limit cfg n →
        Storable dcfg.view (n - 1) t →
        (dcfg.perlCompat = true → Unshared cfg h v ∧ Handled cfg h v ∧ (cfg.perlCompat = true → Referenced false t)) →
        ∃ doc, marshal cfg cs h v = .ok doc ∧
          (doc.length < 2 ^ 63 → ∃ h' v', unmarshal dcfg cs doc = .ok (h', v') ∧ Iso h h' v v') := by
  obtain ⟨buf, i, j, s', hb, -⟩ := unmarshal_ok.1 hu
  obtain ⟨t, j, hd, hs⟩ := unmarshal_sound hb hu
  refine ⟨t, hs, ?_, ?_⟩
  · intro ver lf suf body hdoc
    rw [bodyInput_raw hdoc] at hb
    have e1 : itemBuf ver (headBytes ver 0 lf suf) body = (buf, i) := Except.ok.inj hb
    rw [e1]
    exact ⟨j, hd⟩
  · intro cfg n hver hord hc hn ht hp
    have hw : Writable cfg h (fun _ => False) (n - 1) v := hs.writable ht (fun g => (hp g).2.1) _
    obtain ⟨doc, hm⟩ := (C66 cfg cs h none v n hord hc hn).1 (by rintro hv ⟨g, _⟩; cases g) hw
    refine ⟨doc, hm, fun hsz => ?_⟩
    have hT : Tidy cfg dcfg.view maxSize h v := hs.tidy ht hd.bounded cfg dcfg.view
    have hU : Unshared cfg h v := by
      cases g : dcfg.perlCompat with
      | true => exact (hp g).1
      | false => exact hT.unshared (hs.noPointers ht g cfg)
    obtain ⟨h', v', h1, h2⟩ := Tidy.roundtrip dcfg hT hU hord hver hc hm hsz
    exact ⟨h', v', h1, hs.again ht (fun g1 g2 => (hp g2).2.2 g1) h2⟩

/-- The same for an uncompressed document, from the tree it denotes, without PerlCompat. -/
theorem C73_doc (dcfg : DCfg) (cfg : ECfg) (cs : Codecs) (b : Bytes) (ver : Nat) (lf suf body : Bytes) (h : Heap) (v : Val)
    (t : Tree) (j n : Nat) (hd : IsDoc b ver 0 lf suf body) (hu : unmarshal dcfg cs b = .ok (h, v))
    (hD : Denotes goDialect (itemBuf ver (headBytes ver 0 lf suf) body).1 (itemBuf ver (headBytes ver 0 lf suf) body).2 t j)
    (hp : dcfg.perlCompat = false) (hver : cfg.version ≤ 3) (hord : ∀ n ks, (cfg.ord n ks).Perm ks)
    (hc : cfg.compression = none) (hn : Limit cfg n) (ht : Storable dcfg.view (n - 1) t) :
    ∃ doc, marshal cfg cs h v = .ok doc ∧
      (doc.length < 2 ^ 63 → ∃ h' v', unmarshal dcfg cs doc = .ok (h', v') ∧ Iso h h' v v') := by
  obtain ⟨t', _, h2, h3⟩ := C73_partial dcfg cs b h v hu
  obtain ⟨j', T', g'⟩ := h2 _ _ _ _ hd
  obtain ⟨T, g⟩ := hD
  obtain ⟨e, _, _⟩ := g.unique g'
  cases e
  exact h3 cfg n hver hord hc hn ht (fun g => not_both hp g)

/-- [ \{"a" => undef, COPY "a" => -1}, qr/x/ ]: of the two entries the second counts. -/
def bodyAgain : Bytes := [0x2b, 2, 0x28, 0x2a, 2, 0x61, 0x61, 0x25, 0x2f, 6, 0x1f, 0x31, 0x61, 0x78, 0x60]

theorem bodyAgain_go : Denotes goDialect (0 :: bodyAgain) 1
    (.arr [.ref (.map [([97], .undef), ([97], .int (-1))]), .regexp [120] []]) 16 :=
  ⟨_, .plain (.here rfl (by decide)) (by decide) (.array (n := 2) (.here rfl (by decide) (by decide)) (by decide)
    (.itemsCons (.plain (.here rfl (by decide)) (by decide) (.refn (.plain (.here rfl (by decide)) (by decide)
      (.hash (n := 2) (.here rfl (by decide) (by decide)) (by decide)
        (.pairsCons (.lit (.short (n := 1) (.here rfl (by decide)) rfl ⟨⟨_, rfl⟩, rfl⟩ rfl))
          (.plain (.here rfl (by decide)) (by decide) .undef)
          (.pairsCons (.copy (o := 6) (j' := 8) (.inl rfl) (.here rfl (by decide)) rfl (.here rfl (by decide) (by decide)) (by decide)
              (.short (n := 1) (.here rfl (by decide)) rfl ⟨⟨_, rfl⟩, rfl⟩ rfl) (by intro h; cases h))
            (.plain (.here rfl (by decide)) (by decide) (.int (n := -1))) .pairsNil))))))
    (.itemsCons (.plain (.here rfl (by decide)) (by decide)
      (.regexp (.lit (.short (n := 1) (.here rfl (by decide)) rfl ⟨⟨_, rfl⟩, rfl⟩ rfl))
        (.lit (.short (n := 0) (.here rfl (by decide)) rfl ⟨⟨_, rfl⟩, rfl⟩ rfl)))) .itemsNil)))⟩

/-- Non-vacuity: the tree is Storable with two levels, and the document is accepted (below). -/
theorem bodyAgain_storable : Storable ({} : DCfg).view 2
    (.arr [.ref (.map [([97], .undef), ([97], .int (-1))]), .regexp [120] []]) := by
  refine .arr fun t ht => ?_
  simp only [List.mem_cons, List.not_mem_nil, or_false] at ht
  rcases ht with rfl | rfl
  · refine .ref rfl (.map fun k t h => ?_)
    have := lastLookup_mem h
    simp only [List.mem_cons, List.not_mem_nil, or_false, Prod.mk.injEq] at this
    rcases this with ⟨rfl, rfl⟩ | ⟨rfl, rfl⟩
    · exact .undef rfl
    · exact .int
  · exact .regexp

/-- Unmarshal, and Marshal of the result: `some []` if Marshal fails. -/
def againDoc (d : DCfg) (c : ECfg) (b : Bytes) : Option Bytes :=
  match unmarshal d noCodecs b with
  | .ok (h, v) =>
    match marshal c noCodecs h v with
    | .ok doc => some doc
    | .error _ => some []
  | .error _ => none

/-- What C73_doc speaks of: the second document has a single entry, and no reference. -/
example : againDoc {} {} (doc3 bodyAgain) =
    some (doc3 [0x2b, 2, 0x2a, 1, 0x27, 1, 97, 0x1f, 0x31, 0x61, 0x78, 0x60]) := by decide +kernel

/-- With PerlCompat in both: an object holding a reference to an array comes back as the same bytes. -/
example : againDoc { perlCompat := true } { perlCompat := true } (doc3 [0x28, 0x2c, 0x61, 0x50, 0x28, 0x2b, 2, 0x25, 0x39]) =
    some (doc3 [0x28, 0x2c, 0x61, 0x50, 0x28, 0x2b, 2, 0x25, 0x39]) := by decide +kernel

/-- The condition `Referenced` is not idle: an array that is not behind a reference gets one. -/
example : againDoc { perlCompat := true } { perlCompat := true } (doc3 [0x2b, 1, 5]) = some (doc3 [0x28, 0x2b, 1, 5]) := by
  decide +kernel

/-- A tracked reference to a string is an *interface{}, on which Marshal fails. -/
theorem again_string : againDoc { perlCompat := true } {} (doc3 [0xa8, 0x27, 1, 0x61]) = some [] := by decide +kernel

/-- The full claim is false: with PerlCompat, Marshal returns an error for the data decoded from a (tracked)
reference to a string. -/
theorem C73_fails : ¬ DecodedDataReturns := by
  intro H
  have e := again_string
  unfold againDoc at e
  cases hu : unmarshal { perlCompat := true } noCodecs (doc3 [0xa8, 0x27, 1, 0x61]) with
  | error x => rw [hu] at e; cases e
  | ok r =>
    obtain ⟨h, v⟩ := r
    obtain ⟨doc, hm, h', v', h1, _⟩ := H { perlCompat := true } {} noCodecs _ h v (by decide) (fun _ ks => List.Perm.refl ks) rfl hu
    rw [hu] at e
    dsimp only at e
    rw [hm] at e
    cases e
    have : ∀ r, unmarshal { perlCompat := true } noCodecs [] ≠ .ok r := by
      have e2 : (match unmarshal { perlCompat := true } noCodecs [] with | .ok _ => true | .error _ => false) = false := by
        decide +kernel
      intro r hr
      rw [hr] at e2; cases e2
    exact this _ h1

/-- What decoding, encoding and decoding again yields, in one word each time. -/
def againKinds (b : Bytes) : Option (String × String) :=
  let kind (h : Heap) : Val → String
    | .smap _ => "map"
    | .slice p 2 =>
      match h.cellAt (p + 1) with
      | .int _ _ => "slice ending in a number"
      | .ptr _ _ => "slice ending in a pointer"
      | _ => "slice"
    | .ptr _ a =>
      match h.cellAt a with
      | .frozen _ _ => "PerlFreeze"
      | _ => "pointer"
    | _ => "other"
  match unmarshal {} noCodecs b with
  | .ok (h, v) =>
    match marshal {} noCodecs h v with
    | .ok doc =>
      match unmarshal {} noCodecs doc with
      | .ok (h', v') => some (kind h v, kind h' v')
      | .error _ => none
    | .error _ => none
  | .error _ => none

/-- Frozen objects: a PerlFreeze is written like any other struct and comes back as a map. -/
theorem C73_fails_freeze : againKinds (doc3 [0x32, 0x61, 0x41, 0x28, 0x2b, 1, 0x61, 0x42]) = some ("PerlFreeze", "map") := by
  decide +kernel

/-- REFP: the pointer it is decoded to comes back as what it leads to. -/
theorem C73_fails_refp : againKinds (doc3 [0x2b, 2, 0x85, 0x29, 3]) =
    some ("slice ending in a pointer", "slice ending in a number") := by
  decide +kernel

end Sereal

import Verif.Props.C17
/-
C18: every well-formed item is accepted.
-/
namespace Sereal

/-- The tree contains no reference to an enclosing item. -/
inductive Acyclic : Tree → Prop
  | undef : Acyclic .undef
  | cundef : Acyclic .cundef
  | bool {b} : Acyclic (.bool b)
  | int {i} : Acyclic (.int i)
  | f32 {u} : Acyclic (.f32 u)
  | f64 {u} : Acyclic (.f64 u)
  | str {s} : Acyclic (.str s)
  | bin {s} : Acyclic (.bin s)
  | arr {ts} : (∀ t ∈ ts, Acyclic t) → Acyclic (.arr ts)
  | map {kvs} : (∀ k t, (k, t) ∈ kvs → Acyclic t) → Acyclic (.map kvs)
  | ref {t} : Acyclic t → Acyclic (.ref t)
  | refp {t} : Acyclic t → Acyclic (.refp t)
  | alias {t} : Acyclic t → Acyclic (.alias t)
  | weak {t} : Acyclic t → Acyclic (.weak t)
  | obj {cls t} : Acyclic t → Acyclic (.obj cls t)
  | regexp {p m} : Acyclic (.regexp p m)
  | frz {cls t} : Acyclic t → Acyclic (.frz cls t)

/-- The full claim: every raw document whose body starts with an item of the specified grammar that
denotes an acyclic tree is accepted, and the result is the Go view of the tree. -/
def AcceptsGrammar : Prop :=
  ∀ (cfg : DCfg) (cs : Codecs) (b : Bytes) (ver : Nat) (lenField suffix body : Bytes) (t : Tree) (j : Nat),
    IsDoc b ver 0 lenField suffix body →
    Denotes specDialect (itemBuf ver (headBytes ver 0 lenField suffix) body).1
      (itemBuf ver (headBytes ver 0 lenField suffix) body).2 t j → Acyclic t →
    ∃ h v, unmarshal cfg cs b = .ok (h, v) ∧ Shows cfg.view h v t

/-- What holds: items of the part common to the specification and the decoder, with a tree the Go
decoder can represent, are accepted and give the view of their tree.  Missing from the full claim, each
with a witness below: even ZIGZAG payloads (`C18_zigzag_fails`), COPY as a key of a copied item
(`C18_copyKey_fails`), REFP to an undef (`C18_refpUndef_fails`), frozen objects with a PerlCompat
decoder (`C18_freeze_fails`) and frozen objects whose payload is not a single byte string or is refused
by the registered UnmarshalBinary. -/
theorem C18_partial (cfg : DCfg) (cs : Codecs) (b : Bytes) (ver : Nat) (lenField suffix body : Bytes)
    (t : Tree) (j : Nat) (hd : IsDoc b ver 0 lenField suffix body)
    (ht : Denotes coreDialect (itemBuf ver (headBytes ver 0 lenField suffix) body).1
      (itemBuf ver (headBytes ver 0 lenField suffix) body).2 t j) (hs : Supported cfg.view t) :
    ∃ h v, unmarshal cfg cs b = .ok (h, v) ∧ Shows cfg.view h v t := by
  obtain ⟨T, g⟩ := ht
  exact unmarshal_complete (bodyInput_raw hd) hd.buf_lt ⟨T, g.core_go⟩ hs

/-- The same for everything the decoder's own grammar contains. -/
theorem C18_go (cfg : DCfg) (cs : Codecs) (b : Bytes) (ver : Nat) (lenField suffix body : Bytes)
    (t : Tree) (j : Nat) (hd : IsDoc b ver 0 lenField suffix body)
    (ht : Denotes goDialect (itemBuf ver (headBytes ver 0 lenField suffix) body).1
      (itemBuf ver (headBytes ver 0 lenField suffix) body).2 t j) (hs : Supported cfg.view t) :
    ∃ h v, unmarshal cfg cs b = .ok (h, v) ∧ Shows cfg.view h v t :=
  unmarshal_complete (bodyInput_raw hd) hd.buf_lt ht hs

/-! Witnesses.  All are version 3 documents with an empty header. -/

def doc3 (body : Bytes) : Bytes := [0x3d, 0xf3, 0x72, 0x6c, 3, 0] ++ body

theorem doc3_isDoc {body : Bytes} (h : body.length < 2 ^ 62) : IsDoc (doc3 body) 3 0 [0] [] body where
  eq := by simp [doc3, magicOf]
  version := by omega
  doctype := by omega
  varint := by simp [IsVarint]
  short := by simp
  len := by decide
  size := by simp [doc3]; omega

theorem doc3_buf (body : Bytes) : itemBuf 3 (headBytes 3 0 [0] []) body = (0 :: body, 1) := rfl

theorem C18_zigzag_fails (cfg : DCfg) (cs : Codecs) :
    Denotes specDialect [0, 0x21, 2] 1 (.int 1) 3 ∧ Supported cfg.view (.int 1) ∧
    ¬ ∃ h v, unmarshal cfg cs (doc3 [0x21, 2]) = .ok (h, v) ∧ Shows cfg.view h v (.int 1) := by
  refine ⟨docZigzag_spec, .int, ?_⟩
  rintro ⟨h, v, h1, h2⟩
  obtain ⟨t, j, ⟨T, g⟩, h3⟩ := unmarshal_sound (bodyInput_raw (doc3_isDoc (by simp))) h1
  obtain ⟨T', g'⟩ := docZigzag_go
  obtain ⟨e, _, _⟩ := g.unique g'
  cases e
  rcases h2.int_inv with ⟨i, rfl, hi⟩ | ⟨u, rfl, hu, hi⟩
  · rcases h3.int_inv with ⟨i', e, hi'⟩ | ⟨u', e, _⟩
    · cases e; rw [hi] at hi'; revert hi'; decide
    · cases e
  · omega

/-- [ "a", {COPY "a" => 1}, COPY of the map ]. -/
def bodyCopyKey : Bytes := [0x2b, 3, 0x61, 0x61, 0x2a, 1, 0x2f, 3, 1, 0x2f, 5]

theorem bodyCopyKey_spec : Denotes specDialect (0 :: bodyCopyKey) 1
    (.arr [.bin [0x61], .map [([0x61], .int 1)], .map [([0x61], .int 1)]]) 12 := by
  have hm : ∀ cd T, G specDialect (0 :: bodyCopyKey) cd .item 5 T (.tree (.map [([0x61], .int 1)])) 10 T :=
    fun cd T => .plain (.here rfl (by decide)) (by decide) (.hash (n := 1) (.here rfl (by decide) (by decide))
      (by decide) (.pairsCons (.copy (.inr rfl) (.here rfl (by decide)) (by decide)
        (.here (n := 3) rfl (by decide) (by decide)) (by decide)
        (.short (n := 1) (.here rfl (by decide)) (by decide) ⟨by decide, rfl⟩ rfl)
        (fun h => by cases h))
        (.plain (.here rfl (by decide)) (by decide) .int) .pairsNil))
  exact ⟨_, .plain (.here rfl (by decide)) (by decide) (.array (n := 3) (.here rfl (by decide) (by decide))
    (by decide) (.itemsCons (.plain (.here rfl (by decide)) (by decide) (.short ⟨by decide, rfl⟩ rfl))
      (.itemsCons (hm _ _)
        (.itemsCons (.plain (.here rfl (by decide)) (by decide)
          (.copy rfl (.here (n := 5) rfl (by decide) (by decide)) (by decide) (hm _ _))) .itemsNil))))⟩

/-- The result of a decode depends on the codecs only through the body. -/
theorem unmarshal_doc3 (cfg : DCfg) (cs : Codecs) (body : Bytes) (hl : body.length < 2 ^ 62) 
    (h : (match (decode cfg (0 :: body) (fuelFor (body.length + 1)) 1 (.cell 1)
      { DState.init with tracked := fun _ => none }).1 with
      | .ok _ => true
      | .error _ => false) = false) :
    ∀ r, unmarshal cfg cs (doc3 body) ≠ .ok r := by
  rintro ⟨h', v⟩ hu
  obtain ⟨buf, i, j, s', hb, hd, _⟩ := unmarshal_ok.1 hu
  rw [bodyInput_raw (doc3_isDoc hl), doc3_buf] at hb
  cases hb
  rw [List.length_cons] at hd
  rw [hd] at h
  cases h

theorem C18_copyKey_fails (cs : Codecs) :
    ∀ r, unmarshal {} cs (doc3 bodyCopyKey) ≠ .ok r :=
  unmarshal_doc3 {} cs bodyCopyKey (by decide) (by decide +kernel)

/-- [ (tracked) undef, REFP to it ]. -/
def bodyRefpUndef : Bytes := [0x2b, 2, 0xa5, 0x29, 3]

theorem bodyRefpUndef_spec : Denotes specDialect (0 :: bodyRefpUndef) 1
    (.arr [.undef, .refp .undef]) 6 :=
  ⟨_, .plain (.here rfl (by decide)) (by decide) (.array (n := 2) (.here rfl (by decide) (by decide))
    (by decide) (.itemsCons (.trackedC .undef rfl (by decide) (by decide) (by decide +kernel) .undef)
      (.itemsCons (.plain (.here rfl (by decide)) (by decide)
        (.refp (o := 3) (.here rfl (by decide) (by decide)) (by decide) (by simp [Seen.close, Seen.put]))) .itemsNil)))⟩

theorem C18_refpUndef_fails (cs : Codecs) :
    ∀ r, unmarshal {} cs (doc3 bodyRefpUndef) ≠ .ok r :=
  unmarshal_doc3 {} cs bodyRefpUndef (by decide) (by decide +kernel)

/-- OBJECT_FREEZE of class "A" with payload "x". -/
def bodyFreeze : Bytes := [0x32, 0x61, 0x41, 0x28, 0x2b, 1, 0x61, 0x78]

theorem bodyFreeze_spec : Denotes specDialect (0 :: bodyFreeze) 1
    (.frz [0x41] (.ref (.arr [.bin [0x78]]))) 9 :=
  ⟨_, .plain (.here rfl (by decide)) (by decide) (.freeze
    (.lit (.short (n := 1) (.here rfl (by decide)) (by decide) ⟨by decide, rfl⟩ rfl)) ⟨by decide, rfl⟩
    (.plain (.here rfl (by decide)) (by decide) (.refn (.plain (.here rfl (by decide)) (by decide)
      (.array (n := 1) (.here rfl (by decide) (by decide)) (by decide)
        (.itemsCons (.plain (.here rfl (by decide)) (by decide) (.short ⟨by decide, rfl⟩ rfl)) .itemsNil))))))⟩

theorem C18_freeze_fails (cs : Codecs) :
    ∀ r, unmarshal { perlCompat := true } cs (doc3 bodyFreeze) ≠ .ok r :=
  unmarshal_doc3 _ cs bodyFreeze (by decide) (by decide +kernel)

/-- The code does not satisfy the full claim. -/
theorem C18_fails : ¬ AcceptsGrammar := by
  intro hall
  let cs : Codecs := ⟨fun _ => .ok [], fun _ => .ok [], fun _ _ => .ok [], fun _ => .ok (),
    fun _ => .ok [], fun _ _ => .ok [], fun _ => .ok []⟩
  obtain ⟨h, v, hu, _⟩ := hall {} cs (doc3 bodyRefpUndef) 3 [0] [] bodyRefpUndef _ 6
    (doc3_isDoc (by decide)) bodyRefpUndef_spec
    (.arr (by intro t ht; simp at ht; rcases ht with rfl | rfl <;> first | exact .undef | exact .refp .undef))
  exact C18_refpUndef_fails cs _ hu

/-- Non-vacuity: a shared array, referenced a second time by REFP, inside a map. -/
example : Denotes coreDialect (0 :: [0x2b, 2, 0xab, 1, 7, 0x29, 3]) 1
      (.arr [.arr [.int 7], .refp (.arr [.int 7])]) 8 ∧
    Supported ({} : DCfg).view (.arr [.arr [.int 7], .refp (.arr [.int 7])]) := by
  constructor
  · exact ⟨_, .plain (.here rfl (by decide)) (by decide) (.array (n := 2) (.here rfl (by decide) (by decide))
      (by decide) (.itemsCons (.trackedC .array rfl (by decide) (by decide) (by decide +kernel)
          (.array (n := 1) (.here rfl (by decide) (by decide)) (by decide)
            (.itemsCons (.plain (.here rfl (by decide)) (by decide) .int) .itemsNil)))
        (.itemsCons (.plain (.here rfl (by decide)) (by decide)
          (.refp (o := 3) (.here rfl (by decide) (by decide)) (by decide) (by simp [Seen.close, Seen.put]))) .itemsNil)))⟩
  · have h7 : Supported ({} : DCfg).view (.arr [.int 7]) :=
      .arr (by intro t ht; simp at ht; subst ht; exact .int)
    refine .arr ?_
    intro t ht
    simp at ht
    rcases ht with rfl | rfl
    · exact h7
    · exact .refp h7 (by intro h; cases h)

end Sereal

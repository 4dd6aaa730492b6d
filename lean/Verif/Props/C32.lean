import Verif.Proof.Arrives
import Verif.Props.C06
/-
C32: Perl types survive.  C33: frozen objects.  C34: json.Number.  C41: structs.  C44: named integers.
-/
namespace Sereal

/-- Every finite value in which every pointer is met once, from any encoder to any decoder: Unmarshal succeeds, and
the value arrives in the sense of Spec/Arrives. -/
theorem arrives (cfg : ECfg) (cs : Codecs) (inp : Heap) (header : Option Val) (v : Val) (doc : Bytes) (dcfg : DCfg)
    (hver : cfg.version ≤ 3) (hord : ∀ n ks, (cfg.ord n ks).Perm ks) (hc : cfg.compression = none)
    (hv : Tidy cfg dcfg.view (2 ^ 31 - 1) inp v) (hu : Unshared cfg inp v)
    (h : marshalWithHeader cfg cs inp header v = .ok doc)
    (hsz : doc.length < 2 ^ 63) :
    ∃ h' v', unmarshal dcfg cs doc = .ok (h', v') ∧ Arrives cfg dcfg.view inp h' v v' :=
  hv.roundtrip dcfg hu hord hver hc h hsz

/-! ### C32 -/

/-- Nests of Perl values, of strings, numbers and booleans, and of slices and maps of such, with lengths
up to `n`. -/
inductive PerlNest (n : Nat) (h : Heap) : Val → Prop
  | bool {b} : PerlNest n h (.bool b)
  | int {k i} : PerlNest n h (.int k i)
  | str {s} : s.length ≤ n → PerlNest n h (.str s)
  | bin {s} : s.length ≤ n → PerlNest n h (.bin s)
  | undef {b} : PerlNest n h (.undef b)
  | regexp {p m} : p.length ≤ n → m.length ≤ n → PerlNest n h (.regexp p m)
  | obj {cls v} : cls.length ≤ n → PerlNest n h v → PerlNest n h (.obj cls v)
  | weak {v} : PerlNest n h v → PerlNest n h (.weak v)
  | ptr {a} : isPerlStruct (h.cellAt a) = true → PerlNest n h (h.cellAt a) → PerlNest n h (.ptr false a)
  | slice {p len} : len ≤ n → (∀ i, i < len → PerlNest n h (h.cellAt (p + i))) → PerlNest n h (.slice p len)
  | smap {m} : (h.mapAt m).length ≤ n → ((h.mapAt m).map Prod.fst).Nodup →
      (∀ k v, mapLookup k (h.mapAt m) = some v → k.length ≤ n) →
      (∀ k v, mapLookup k (h.mapAt m) = some v → PerlNest n h v) → PerlNest n h (.smap m)

/-- What a PerlCompat decoder should make of it.  `ref` tells whether containers are behind references.
A Perl value and a pointer to it are the same. -/
inductive Survives (ref : Bool) (h h' : Heap) : Val → Val → Prop
  | bool {b} : Survives ref h h' (.bool b) (.bool b)
  | int {k i} : Survives ref h h' (.int k i) (.int .int i)
  | str {s} : Survives ref h h' (.str s) (.str s)
  | bin {s} : Survives ref h h' (.bin s) (.bin s)
  | undef {a} : h'.mem a = .cell (.undef false) → Survives ref h h' (.undef false) (.ptr false a)
  | canonical : h'.mem canonicalUndefAddr = .cell (.undef true) →
      Survives ref h h' (.undef true) (.ptr false canonicalUndefAddr)
  | regexp {a p m} : h'.mem a = .cell (.regexp p m) → Survives ref h h' (.regexp p m) (.ptr false a)
  | obj {a cls v v'} : h'.mem a = .cell (.obj cls v') → Survives ref h h' v v' →
      Survives ref h h' (.obj cls v) (.ptr false a)
  | weak {a v v'} : h'.mem a = .cell (.weak v') → Survives ref h h' v v' →
      Survives ref h h' (.weak v) (.ptr false a)
  | ptr {a v'} : Survives ref h h' (h.cellAt a) v' → Survives ref h h' (.ptr false a) v'
  | slice {p p' n v'} : Held ref h' v' (.slice p' n) →
      (∀ i, i < n → Survives ref h h' (h.cellAt (p + i)) (h'.cellAt (p' + i))) → Survives ref h h' (.slice p n) v'
  | smap {m m' v'} : Held ref h' v' (.smap m') → ((h'.mapAt m').map Prod.fst).Nodup →
      (∀ k, (mapLookup k (h.mapAt m)).isSome = (mapLookup k (h'.mapAt m')).isSome) →
      (∀ k x x', mapLookup k (h.mapAt m) = some x → mapLookup k (h'.mapAt m') = some x' → Survives ref h h' x x') →
      Survives ref h h' (.smap m) v'

theorem PerlNest.tidy {n : Nat} {h : Heap} {v : Val} (hp : PerlNest n h v) (c : ECfg) (w : ViewCfg) :
    Tidy c w n h v := by
  induction hp with
  | bool => exact .bool
  | int => exact .int
  | str h => exact .str h
  | bin h => exact .bin h
  | undef => exact .undef
  | regexp h1 h2 => exact .regexp h1 h2
  | obj h1 _ ih => exact .obj h1 ih
  | weak _ ih => exact .weak ih
  | ptr h1 _ ih => exact .perlPtr h1 ih
  | slice h1 _ ih => exact .slice h1 ih
  | smap h1 h2 h3 _ ih => exact .smap h1 h2 h3 ih

theorem PerlNest.noPointers {n : Nat} {h : Heap} {v : Val} (hp : PerlNest n h v) (c : ECfg) : NoPointers c h v := by
  refine ⟨PerlNest n h, hp, fun w hw => ⟨fun a ho => ?_, fun u hu => ?_⟩⟩
  · rcases ho with rfl | ⟨rfl, hn⟩
    · cases hw
    · cases hw with | ptr h _ => exact hn (perl_iff.1 h)
  · rcases hu with hu | hu | ⟨a, ho, rfl⟩
    · cases hu with
      | elem hi => cases hw with | slice _ h => exact h _ hi
      | relem hi => cases hw
      | entry hk => cases hw with | smap _ _ _ h => exact h _ _ hk
      | rentry hk => cases hw
      | field => cases hw
      | cls => cases hw
      | data => cases hw
      | perl => cases hw with | ptr _ h => exact h
    · cases hu with
      | obj => cases hw with | obj _ h => exact h
      | weak => cases hw with | weak h => exact h
      | under => cases hw
    · rcases ho with rfl | ⟨rfl, hn⟩
      · cases hw
      · cases hw with | ptr _ h => exact h

theorem IsNumber.int {v' : Val} {i : Int64} (h : IsNumber v' i.toInt) : v' = .int .int i := by
  rcases h with ⟨j, rfl, hj⟩ | ⟨u, _, hu, hj⟩
  · rw [i64_ext hj]
  · have := i.toInt_lt; omega

theorem Boxed.perl {w : ViewCfg} (hw : w.perlCompat = true) {h' : Heap} {v' u box : Val}
    (h : Boxed w.perlCompat h' v' u box) : ∃ a, v' = .ptr false a ∧ h'.mem a = .cell box := by
  rcases h with ⟨h, _⟩ | ⟨_, h⟩
  · rw [hw] at h; cases h
  · exact h

theorem PerlNest.survives {n : Nat} {c : ECfg} {w : ViewCfg} {h h' : Heap} {v v' : Val} (hp : PerlNest n h v)
    (hw : w.perlCompat = true) (ha : Arrives c w h h' v v') : Survives c.perlCompat h h' v v' := by
  have hb : (c.perlCompat && !false && w.perlCompat) = c.perlCompat := by
    rw [hw, Bool.and_true, Bool.not_false, Bool.and_true]
  induction hp generalizing v' with
  | bool => cases ha; exact .bool
  | int => cases ha with | int hn => rw [hn.int]; exact .int
  | str => cases ha; exact .str
  | bin => cases ha; exact .bin
  | @undef b =>
    cases ha with
    | undef hu =>
      rcases hu with ⟨hx, _⟩ | ⟨_, ⟨a, rfl, hm⟩, hc⟩
      · rw [hw] at hx; cases hx
      · cases b with
        | false => exact .undef hm
        | true => cases hc rfl; exact .canonical hm
  | regexp => cases ha with | regexp hr => obtain ⟨a, rfl, hm⟩ := hr; exact .regexp hm
  | obj _ _ ih => cases ha with | obj hx hy => obtain ⟨a, rfl, hm⟩ := hx.perl hw; exact .obj hm (ih hy)
  | weak _ ih => cases ha with | weak hx hy => obtain ⟨a, rfl, hm⟩ := hx.perl hw; exact .weak hm (ih hy)
  | ptr hps _ ih =>
    cases ha with
    | perlPtr _ hy => exact .ptr (ih hy)
    | ptr hb => rw [hb rfl] at hps; cases hps
  | slice _ _ ih => cases ha with | slice hh hy => rw [hb] at hh; exact .slice hh (fun i hi => ih i hi (hy i hi))
  | smap _ _ _ _ ih =>
    cases ha with
    | smap hh h1 h2 h3 =>
      rw [hb] at hh; exact .smap hh h1 h2 (fun k x x' hx hx' => ih k x hx (h3 k x x' hx hx'))

/-- C32.  Perl values, nested in each other and in containers in any way, survive. -/
theorem C32 (cfg : ECfg) (cs : Codecs) (inp : Heap) (header : Option Val) (v : Val) (doc : Bytes) (dcfg : DCfg)
    (hver : cfg.version ≤ 3) (hord : ∀ n ks, (cfg.ord n ks).Perm ks) (hc : cfg.compression = none)
    (hd : dcfg.perlCompat = true) (hv : PerlNest (2 ^ 31 - 1) inp v)
    (h : marshalWithHeader cfg cs inp header v = .ok doc) (hsz : doc.length < 2 ^ 63) :
    ∃ h' v', unmarshal dcfg cs doc = .ok (h', v') ∧ Survives cfg.perlCompat inp h' v v' := by
  obtain ⟨h', v', h1, h2⟩ := arrives cfg cs inp header v doc dcfg hver hord hc (hv.tidy _ _) ((hv.tidy cfg dcfg.view).unshared (hv.noPointers cfg)) h hsz
  exact ⟨h', v', h1, hv.survives hd h2⟩

/-- [Foo(weak(undef)), Foo(canonical undef), qr/a/i]: the second class name is written as COPY. -/
def perlHeap : Heap where
  mem a := if a = 1 then .cell (.obj [70] (.weak (.undef false))) else if a = 2 then .cell (.obj [70] (.undef true))
    else if a = 3 then .cell (.regexp [97] [105]) else .cell .nil
  next := 4

example : marshal { perlCompat := true } noCodecs perlHeap (.slice 1 3) =
    .ok [0x3d, 0xf3, 0x72, 0x6c, 3, 0, 0x28, 0x2b, 3, 0x2c, 0x61, 70, 0x30, 0x25, 0x2c, 0x2f, 5, 0x39,
      0x31, 0x61, 97, 0x61, 105] := by decide +kernel

example : PerlNest (2 ^ 31 - 1) perlHeap (.slice 1 3) := by
  refine .slice (by decide) (fun i hi => ?_)
  have : i = 0 ∨ i = 1 ∨ i = 2 := by omega
  rcases this with rfl | rfl | rfl
  · exact .obj (by decide) (.weak .undef)
  · exact .obj (by decide) .undef
  · exact .regexp (by decide) (by decide)

/-! ### C33 -/

/-- C33 for decoders without PerlCompat, frozen objects at any place of a value in which every pointer is met once
(slice elements, map values, struct fields, inside objects): `ArrivesAs.marshaler` is the claim.  The
registered UnmarshalBinary is assumed to accept (part of `Tidy`; otherwise Unmarshal returns its error).
For PerlCompat decoders see `C33_fails`. -/
theorem C33_partial (cfg : ECfg) (cs : Codecs) (inp : Heap) (header : Option Val) (v : Val) (doc : Bytes) (dcfg : DCfg)
    (hver : cfg.version ≤ 3) (hord : ∀ n ks, (cfg.ord n ks).Perm ks) (hc : cfg.compression = none)
    (hf : cfg.disableFreeze = false) (h : marshalWithHeader cfg cs inp header v = .ok doc) (hsz : doc.length < 2 ^ 63) :
    (∀ cls d under, v = .marshaler cls (.ok d) under → dcfg.perlCompat = false → cls.length ≤ 2 ^ 31 - 1 →
      d.length ≤ 2 ^ 31 - 1 → (∀ u, dcfg.view.registry cls = some u → u d = none) →
      ∃ h' a, unmarshal dcfg cs doc = .ok (h', .ptr false a) ∧
        ((dcfg.view.registry cls).isSome = true → h'.mem a = .cell (.thawed cls d)) ∧
        (dcfg.view.registry cls = none → h'.mem a = .cell (.frozen cls d))) ∧
    (Tidy cfg dcfg.view (2 ^ 31 - 1) inp v → Unshared cfg inp v →
      ∃ h' v', unmarshal dcfg cs doc = .ok (h', v') ∧ Arrives cfg dcfg.view inp h' v v') := by
  refine ⟨?_, fun hv hu => arrives cfg cs inp header v doc dcfg hver hord hc hv hu h hsz⟩
  rintro cls d under rfl hp h1 h2 h3
  obtain ⟨h', v', hu, ha⟩ := arrives cfg cs inp header _ doc dcfg hver hord hc
    (.marshaler hf hp (by decide) h1 h2 h3) (.freeze hf) h hsz
  cases ha with
  | marshalerOff hf' => rw [hf] at hf'; cases hf'
  | marshaler _ hx =>
    obtain ⟨a, rfl, hm⟩ := hx
    exact ⟨h', a, hu, fun hr => by rw [hr] at hm; exact hm, fun hr => by rw [hr] at hm; exact hm⟩

/-- What is handed over at any place, read off `Arrives`. -/
theorem Arrives.frozen_at {c : ECfg} {w : ViewCfg} {h h' : Heap} {cls d : Bytes} {under v' : Val}
    (hf : c.disableFreeze = false) (ha : Arrives c w h h' (.marshaler cls (.ok d) under) v') :
    PtrTo h' v' (if (w.registry cls).isSome then .thawed cls d else .frozen cls d) := by
  cases ha with
  | marshalerOff hf' => rw [hf] at hf'; cases hf'
  | marshaler _ hx => exact hx

/-- An object of class "F" whose MarshalBinary returns "x", marshalled by a PerlCompat encoder. -/
def frozenDoc : Bytes := [0x3d, 0xf3, 0x72, 0x6c, 3, 0, 0x32, 0x27, 1, 70, 0x28, 0x2b, 1, 0x61, 120]

example : marshal { perlCompat := true } noCodecs sampleHeap (.marshaler [70] (.ok [120]) .nil) = .ok frozenDoc := by
  decide +kernel

/-- C33 is false for PerlCompat decoders: they expect the payload array without the reference that the
encoder writes in front of it, and refuse the document. -/
theorem C33_fails : marshal { perlCompat := true } noCodecs sampleHeap (.marshaler [70] (.ok [120]) .nil) = .ok frozenDoc ∧
    ∀ r, unmarshal { perlCompat := true } noCodecs frozenDoc ≠ .ok r := by
  refine ⟨by decide +kernel, fun r hr => ?_⟩
  have : (unmarshal { perlCompat := true } noCodecs frozenDoc).isOk = false := by decide +kernel
  rw [hr] at this
  cases this

/-! ### C34 -/

theorem parseInt_emit (cfg : ECfg) (s : Bytes) : ∃ w : Bytes, encodeJsonNumber cfg s false = emit w ∧
    w.length ≤ s.length + (varint s.length).length + 11 := by
  unfold encodeJsonNumber
  split
  · rename_i i _; exact ⟨_, rfl, by have := encodeInt_length true (Int64.ofInt i); omega⟩
  · rw [encodeString_false]; exact ⟨_, rfl, by simp [strItem]; omega⟩
  · split
    · exact ⟨_, rfl, by simp [encodeDouble]⟩
    · rw [encodeString_false]; exact ⟨_, rfl, by simp [strItem]; omega⟩

/-- C34.  For every decimal text of an integer, of any length up to the decoder's limit, encoder and
decoder: Marshal succeeds, and Unmarshal yields that integer as an int if it fits, else the same text. -/
theorem C34 (cfg : ECfg) (cs : Codecs) (inp : Heap) (dcfg : DCfg) (s : Bytes) (z : Int)
    (hver : cfg.version ≤ 3) (hord : ∀ n ks, (cfg.ord n ks).Perm ks) (hc : cfg.compression = none)
    (hz : IntText s z) (hs : s.length ≤ 2 ^ 31 - 1) :
    ∃ doc, marshal cfg cs inp (.jnum s) = .ok doc ∧ ∃ h v, unmarshal dcfg cs doc = .ok (h, v) ∧
      (-2 ^ 63 ≤ z ∧ z < 2 ^ 63 → ∃ i : Int64, v = .int .int i ∧ i.toInt = z) ∧
      (z < -2 ^ 63 ∨ 2 ^ 63 ≤ z → v = .str s) := by
  obtain ⟨w, hw, hl⟩ := parseInt_emit cfg s
  have hm := marshal_emit (cfg := cfg) (inp := inp) (v := .jnum s) (w := w) cs hc (fun _ => hw)
  have := varint_lt63 (n := s.length) (by omega)
  obtain ⟨h, v, hu, ha⟩ := arrives cfg cs inp none _ _ dcfg hver hord hc (.jnum hs) (.plain trivial) hm
    (by rw [List.length_append, encHeader0_length hver]; omega)
  refine ⟨_, hm, h, v, hu, ?_⟩
  cases ha with
  | jnumInt h1 h2 h3 h4 =>
    cases intText_unique h1 hz
    refine ⟨fun _ => ?_, fun h => by omega⟩
    rcases h4 with ⟨i, rfl, hi⟩ | ⟨u, _, hu, hi⟩
    · exact ⟨i, rfl, hi⟩
    · omega
  | jnumBig h1 h2 =>
    cases intText_unique h1 hz
    exact ⟨fun h => by omega, fun _ => rfl⟩
  | jnumFloat h1 _ => exact absurd hz (h1 z)
  | jnumText h1 _ => exact absurd hz (h1 z)

/-- The same at any place inside a value, read off `Arrives`. -/
theorem Arrives.jnum_at {c : ECfg} {w : ViewCfg} {h h' : Heap} {s : Bytes} {z : Int} {v : Val}
    (ha : Arrives c w h h' (.jnum s) v) (hz : IntText s z) :
    (-2 ^ 63 ≤ z ∧ z < 2 ^ 63 → ∃ i : Int64, v = .int .int i ∧ i.toInt = z) ∧
      (z < -2 ^ 63 ∨ 2 ^ 63 ≤ z → v = .str s) := by
  cases ha with
  | jnumInt h1 h2 h3 h4 =>
    cases intText_unique h1 hz
    refine ⟨fun _ => ?_, fun h => by omega⟩
    rcases h4 with ⟨i, rfl, hi⟩ | ⟨u, _, hu, hi⟩
    · exact ⟨i, rfl, hi⟩
    · omega
  | jnumBig h1 h2 =>
    cases intText_unique h1 hz
    exact ⟨fun h => by omega, fun _ => rfl⟩
  | jnumFloat h1 _ => exact absurd hz (h1 z)
  | jnumText h1 _ => exact absurd hz (h1 z)

/-- "-0012" and "99999999999999999999". -/
example : IntText [45, 48, 48, 49, 50] (-12) := .minus (ds := [48, 48, 49, 50]) (by decide) (by decide)
example : IntText (List.replicate 20 57) 99999999999999999999 := .plain (ds := List.replicate 20 57) (by decide) (by decide)

/-! ### C41 -/

/-- C41, when Marshal succeeds.  First the bytes, for fields of any kind: the body is an item denoting an
object of the class named like the type, around a map whose keys are distinct and are the names of the
fields that are exported or tagged and not tagged "-", each with what is written for the last field of
that name.  Then what arrives.  Missing: Marshal fails for structs with tagged unexported fields, see
`C41_fails`. -/
theorem C41_partial (cfg : ECfg) (cs : Codecs) (inp : Heap) (header : Option Val) (name : Bytes) (a : Addr) (doc : Bytes)
    (hver : cfg.version ≤ 3) (hord : ∀ n ks, (cfg.ord n ks).Perm ks) (hc : cfg.compression = none)
    (h : marshalWithHeader cfg cs inp header (.strct name a) = .ok doc) (hsz : doc.length ≤ 2 ^ 31 - 1) :
    (∃ ver lf suf body kts, IsDoc doc ver 0 lf suf body ∧
      Denotes wrtDialect (itemBuf ver (headBytes ver 0 lf suf) body).1
        (itemBuf ver (headBytes ver 0 lf suf) body).2 (.obj name (refWrap cfg.perlCompat (.map kts)))
        (itemBuf ver (headBytes ver 0 lf suf) body).1.length ∧
      (kts.map Prod.fst).Nodup ∧
      (∀ k, k ∈ kts.map Prod.fst ↔ ∃ f ∈ inp.fieldsAt a, effName f = some k) ∧
      (∀ k t v, (k, t) ∈ kts → lastLookup k (fieldEntries (inp.fieldsAt a)) = some v → Written cfg inp false v t)) ∧
    (∀ dcfg : DCfg, Tidy cfg dcfg.view (2 ^ 31 - 1) inp (.strct name a) →
      Unshared cfg inp (.strct name a) →
      ∃ h' v' u m', unmarshal dcfg cs doc = .ok (h', v') ∧ Boxed dcfg.perlCompat h' v' u (.obj name u) ∧
        Held (cfg.perlCompat && dcfg.perlCompat) h' u (.smap m') ∧ ((h'.mapAt m').map Prod.fst).Nodup ∧
        (∀ k, k ∈ (h'.mapAt m').map Prod.fst ↔ ∃ f ∈ inp.fieldsAt a, effName f = some k) ∧
        (∀ k x x', lastLookup k (fieldEntries (inp.fieldsAt a)) = some x → mapLookup k (h'.mapAt m') = some x' →
          Arrives cfg dcfg.view inp h' x x')) := by
  have hmem : ∀ k, k ∈ (fieldEntries (inp.fieldsAt a)).map Prod.fst ↔ ∃ f ∈ inp.fieldsAt a, effName f = some k := by
    intro k
    unfold fieldEntries
    simp only [List.mem_map, List.mem_filterMap, Option.map_eq_some_iff]
    constructor
    · rintro ⟨⟨k', v⟩, ⟨f, hf, k'', hk, he⟩, rfl⟩
      cases he
      exact ⟨f, hf, hk⟩
    · rintro ⟨f, hf, hk⟩
      exact ⟨(k, f.val), ⟨f, hf, k, hk, rfl⟩, rfl⟩
  refine ⟨?_, fun dcfg hv hu => ?_⟩
  · obtain ⟨lf, suf, body, t, h1, _, h3, h4, h5⟩ := raw_denotes hord hver hc h (by omega)
    cases h3 with
    | @strct _ _ _ kts g1 g2 g3 =>
      exact ⟨_, lf, suf, body, kts, h1, h5 (h4.mono hsz), g1, fun k => (g2 k).trans (hmem k), g3⟩
  · obtain ⟨h', v', hr, ha⟩ := arrives cfg cs inp header _ doc dcfg hver hord hc hv hu h (by omega)
    cases ha with
    | @strct _ _ _ m' u _ g1 g2 g3 g4 g5 =>
      refine ⟨h', v', u, m', hr, g1, g2, g3, fun k => ?_, g5⟩
      rw [← hmem, ← mapLookup_isSome, ← g4, lastLookup_isSome]

/-- type T struct { A int `sereal:"x"`; B string; c bool; D int `sereal:"-"` } with A = 1, B = "b". -/
def structHeap : Heap where
  mem a := if a = 1 then .flds [⟨[65], [120], true, .int .int 1⟩, ⟨[66], [], true, .str [98]⟩,
      ⟨[99], [], false, .bool true⟩, ⟨[68], [45], true, .int .int 4⟩] else .cell .nil
  next := 2

example : marshal {} noCodecs structHeap (.strct [84] 1) =
    .ok [0x3d, 0xf3, 0x72, 0x6c, 3, 0, 0x2c, 0x61, 84, 0x2a, 2, 0x27, 1, 120, 1, 0x27, 1, 66, 0x27, 1, 98] := by
  decide +kernel

/-- type T struct { a int `sereal:"x"` }. -/
def unexportedHeap : Heap where
  mem a := if a = 1 then .flds [⟨[97], [120], false, .int .int 1⟩] else .cell .nil
  next := 2

/-- C41 is false for tagged unexported fields: they are not left out, and reading them panics, so that
Marshal returns an error instead of a document. -/
theorem C41_fails : ∀ doc, marshal {} noCodecs unexportedHeap (.strct [84] 1) ≠ .ok doc := by
  intro doc hd
  have : (marshal {} noCodecs unexportedHeap (.strct [84] 1)).isOk = false := by decide +kernel
  rw [hd] at this
  cases this

/-! ### C44 -/

/-- C44 for named types of kind int, and for numbers that are not negative: at any place, the same
number arrives.  Missing: see `C44_fails` and `C44_uint_fails`. -/
theorem C44_partial (cfg : ECfg) (cs : Codecs) (inp : Heap) (dcfg : DCfg) (k : IntK) (i : Int64)
    (hver : cfg.version ≤ 3) (hord : ∀ n ks, (cfg.ord n ks).Perm ks) (hc : cfg.compression = none)
    (hk : k = .int ∨ 0 ≤ i) :
    (∃ doc, marshal cfg cs inp (.nint k i) = .ok doc ∧ ∃ h, unmarshal dcfg cs doc = .ok (h, .int .int i)) ∧
    (∀ w h h' v', Arrives cfg w h h' (.nint k i) v' → v' = .int .int i) := by
  have key : ∀ w h h' v', Arrives cfg w h h' (.nint k i) v' → v' = .int .int i := by
    intro w h h' v' ha
    cases ha with
    | nint _ hn => exact hn.int
    | nintWrap h1 h2 =>
      rcases hk with hk | hk
      · exact absurd hk h1
      · rw [Int64.le_iff_toInt_le] at hk; rw [Int64.lt_iff_toInt_lt] at h2; omega
  refine ⟨?_, key⟩
  have hm := marshal_emit (cfg := cfg) (inp := inp) (v := .nint k i) (w := encodeInt (k = .int) i) cs hc (fun _ => rfl)
  obtain ⟨h, v, hu, ha⟩ := arrives cfg cs inp none _ _ dcfg hver hord hc .nint (.plain trivial) hm
    (by have := encodeInt_length (k = .int) i; rw [List.length_append, encHeader0_length hver]; omega)
  exact ⟨_, hm, h, by rw [← key _ _ _ _ ha]; exact hu⟩

/-- C44 is false for every negative number of a named int8, int16, int32 or int64 type: 2^64 is added. -/
theorem C44_fails (cfg : ECfg) (cs : Codecs) (inp : Heap) (dcfg : DCfg) (k : IntK) (i : Int64)
    (hver : cfg.version ≤ 3) (hord : ∀ n ks, (cfg.ord n ks).Perm ks) (hc : cfg.compression = none)
    (hk : k ≠ .int) (hi : i < 0) :
    ∃ doc, marshal cfg cs inp (.nint k i) = .ok doc ∧ ∃ h u, unmarshal dcfg cs doc = .ok (h, .uint .uint u) ∧
      (u.toNat : Int) = 2 ^ 64 + i.toInt := by
  have hi' : i.toInt < 0 := by rw [Int64.lt_iff_toInt_lt] at hi; simpa using hi
  have hm := marshal_emit (cfg := cfg) (inp := inp) (v := .nint k i) (w := encodeInt (k = .int) i) cs hc (fun _ => rfl)
  obtain ⟨h, v, hu, ha⟩ := arrives cfg cs inp none _ _ dcfg hver hord hc .nint (.plain trivial) hm
    (by have := encodeInt_length (k = .int) i; rw [List.length_append, encHeader0_length hver]; omega)
  refine ⟨_, hm, h, ?_⟩
  cases ha with
  | nint h1 =>
    rcases h1 with h1 | h1
    · exact absurd h1 hk
    · rw [Int64.le_iff_toInt_le] at h1; simp at h1; omega
  | nintWrap _ _ hn =>
    rcases hn with ⟨j, _, hj⟩ | ⟨u, rfl, _, hj⟩
    · have := j.toInt_lt; have := i.le_toInt; omega
    · exact ⟨u, hu, hj⟩

/-- C44 is false for named unsigned types: Marshal never succeeds. -/
theorem C44_uint_fails (cfg : ECfg) (cs : Codecs) (inp : Heap) (header : Option Val) (k : UintK) (u : UInt64) (doc : Bytes) :
    marshalWithHeader cfg cs inp header (.nuint k u) ≠ .ok doc := by
  intro h
  obtain ⟨suffix, body, _, h2, _⟩ := marshal_ok.1 h
  have h0 : ∀ d, encode cfg inp d (.nuint k u) false false =
      E.fail (.panic "reflect: call of reflect.Value.Int on uint Value") := by
    intro d
    match d with
    | 0 => rfl
    | 1 => rfl
    | d + 2 => rfl
  unfold encodeAfter at h2
  rw [h0] at h2
  simp [E.fail] at h2

end Sereal

# Formal model of Sereal/Sereal (Go) in Lean 4

Scope: the Go package `/repo/Go/sereal` (encode.go, decode.go, merge.go, const.go, perl.go, tagscache.go, snappy.go,
zlib.go, zstd.go, errors.go).  The properties are in `properties.jsonl`; `MANIFEST.json` maps them to theorems;
`seeded/LOG.jsonl` records the attempts to break the theorems with wrong programs.  Observed there are
`first_failures`, the lemmas at which the build of the wrong program stopped.  `theorems_failed` is derived from them: the
property theorems of that time whose proofs use such a lemma.  These lists were too long until the commit that added C63 (lemma
names were looked up without their module, and later theorems were counted for earlier runs).  `target_reached` says
whether the property the edit was aimed at is among them; where it is not, the build stopped earlier, at lemmas the property does
not use, and the attempt says nothing about that property.  Those attempts were repeated with the lemmas that do not belong
to the target set aside (`target_rerun`).  "Rejected" there means that a lemma the target's proof uses does not compile for the
wrong program, which is weaker than a refutation of the property.  Nine claims turned out to be attributed to a property the edit does not
break; they are corrected and say so.  Edits that the target does not reject show what the theorems do not cover: see section 6.

## 1. Trusted base

* The Lean 4.33.0 kernel.  `lake build` checks every proof; there is no `sorry`, `admit`, `native_decide`, `bv_decide`
  or axiom of our own.
* Axioms: every theorem named in the manifest depends on at most `propext`, `Classical.choice` and `Quot.sound`
  (`#print axioms`).  About a third of them do without `Classical.choice` (all witnesses, C29, C38, C43, C46).
  The witnesses (`*_fails`, `*_crash`) are computed by the kernel (`decide`, `decide +kernel`).
* That `Verif/Model` says what the Go code does.  The model was written by reading; nothing was executed.  Each
  definition cites the lines it transcribes.  Section 3 lists what is simplified.
* That `Verif/Spec` says what the properties mean.
* The behaviour of the Go language and library as far as the model uses it: 64-bit `int`, `append`, `copy`, slicing and
  its run-time checks, maps, `reflect` (which calls panic, and whether the panic is a run-time error), `encoding/json`'s
  `Number.Int64`/`Float64` and `strconv` as parameters with their documented contract, `strings.Title` as a parameter.

## 2. Layers

1. `Verif/Model/*` – executable transcription of the Go code, function by function.
   * bytes are `List UInt8`; Go `int`/`uint` results of varint decoding are 64-bit, indices are `Nat`.
   * Go values live in an explicit heap (`Heap`): interface cells, slices (consecutive cells), maps and structs have
     addresses, so sharing and cycles are expressible.
   * a map is an association list; each `range` over a map asks an arbitrary order oracle, so a theorem over all oracles
     covers every iteration order.
   * a Go function that may fail returns `Res`: `ok`, `err` (returned error), `panic` (panic with a string or `error`,
     turned into an error by the API functions) or `crash` (runtime error, re-panicked by the API functions: the program
     dies).  `decode` is state-passing: the Decoder state survives errors and panics.
   * recursion that follows the input is fuelled; C14 shows that a stated fuel, a function of the input length, is never
     exhausted.  The encoder recurses on `remainingDepth`, as the code does.
   * third-party codecs (snappy, zlib, zstd) are parameters (`Codecs`); theorems that need it assume that decompression
     inverts compression (`Lossless`).
2. `Verif/Spec/*` – independent specifications.  The most important ones:
   * `Grammar`: the body grammar of `sereal_spec.pod` as an inductive relation `G` between positions of a buffer and trees
     (`Denotes`: from the start of the body).  It is parametrised by a `Dialect` for the points where the Go decoder
     departs from the specification: `specDialect`, `goDialect`, their common part `coreDialect`, and `wrtDialect` for
     what the encoder writes.
   * `View` (`Shows c h v t`): the Go value `v` in heap `h` is what a decoder with flags `c` should make of the tree `t`.
   * `Written`: which trees a Go value may be written as.
   * `Same`, `Tidy`, `Arrives`: when two values are the same data; what a value should look like after a round trip.
   * `Unshared`: no pointer inside of a value is met twice (C72; condition of the theorems about `Tidy` values).
   * `Again` (`Storable`, `Referenced`): documents whose decoded data can be marshalled again (C73).
   * `Moved` (`MovedTo`, `Relocation`): two memories hold the same data, with the same sharing, at other addresses (C76).
   * `Typed` (`Takes`, `Fills`), `Holds`: what a typed variable should hold after decoding a tree; when that is a given
     Go value.
   * `Doc`, `Varint`, `Nest`, `Support`, `Fails`, `Movable`, `Merged`.
   * `Graph` (`Fit`, `Copied`, `GraphCopy`): when variables of typed memory are a copy of a Go value whose pointers may be
     shared or form cycles.
   * `Places` (`Laid`): a document as a graph of Go variables: which variable each item is in, and which one each reference
     shares (C31).  `Outside` (`LeadsTo`): which memory can be reached from a variable (C58).
   * `Tokens` (`Tok`, `Toks`): documents as rows of tokens, without nesting, as the merger looks at them; `Smooth`: values
     free of what the merger refuses.
3. `Verif/Proof/*` – lemmas.  The spine: the decoder is sound (`SoundDecode`, by induction on fuel) and complete
   (`Complete`, by induction on derivations) for the grammar; the encoder emits grammar items (`EmitMain`); round
   trips compose the two.  Typed decoding has its own completeness proof (`TypedComp`), the merger a simulation of its
   token loop against the grammar (`MergeG`, `MergeAll`).  That the merger succeeds at all is proved against rows of
   tokens (`MergeAccepts`, `MergeOk`), and the encoder is shown to write such rows (`EmitToks`).  For graphs of structs
   (C55) the grammar is not enough, since it does not tell which positions hold the same pointer: `Layout` describes the
   bytes together with the pointers met at each position, `LayDecode` to `LayMain` follow the decoder over them.
   That two documents are decoded alike (C06, C09, C56) is proved without the grammar, for values that do not
   denote trees too: `Twin` relates corresponding positions in two buffers, `TwinDecode` runs the decoder over both,
   `TwinEmit` and `TwinEncode` run two encoders side by side.  `TwinMem` does the same for the decoder of typed
   variables (C57); what it does to memory apart from reading the buffer is `Uniform`, i.e. does not look at positions.
   `Places` to `PlacesFound` follow the untyped decoder over the graph of variables (C31); `Fence` shows that every step
   of the typed decoder stays inside a closed set of variables (C58); `Modest` and `Spend` bound sizes and numbers of what
   it allocates (C65).  `Writable` says on which values encode succeeds (C66, C67).  `MergeSafe`
   shows that the merger returns and does not look behind the document (C68, C69).  `MergeAgain`,
   `MergeSteps` show that merged documents can be merged again (C70).  `HeadByte` shows that both decoders read
   byte 0 of their buffer for offset 0 only (C61).  `Shorter` runs an encoder with and without deduplication on the same value
   (C77).  `Props/C78` runs two encoders on the same data (`Spec/Same`, C78), `Proof/Bulk` that each step of the encoder appends at
   most what `Bulk` (`Spec/Bulk`) counts (C79).  `Sealed` shows that fields no key of the document leads to are not
   written (C50, C64).  `Proof/Grows` shows that the encoder only appends, so that documents are never shorter than what
   LooksLikeSereal wants (C10_looks); `Props/C24More` has the version 1 part of C24.  `Props/C80` compares the readers on
   two documents that differ in their first five bytes (C80).  `Proof/Usual` follows the decoder with the list of kinds in
   `Spec/Kinds` (C81, also used by C74 and C75).
4. `Verif/Props/*` – the property theorems with non-vacuity examples.

Properties that the code violates get (a) a theorem proving the violation on a concrete input (`*_fails`) and (b) a
theorem with suffix `_partial` for the part that holds.

## 3. What is modelled, and what is not

Modelled:

| file | modelled | not modelled |
|------|----------|--------------|
| const.go, errors.go, perl.go | all | error texts |
| encode.go | all of `Marshal`, `MarshalWithHeader`, `encode*`, `varint`, `getPointer`, `remainingRecursion` | `concreteName` (class names are parameters); maps with keys that are not strings; marshalers that are not structs |
| tagscache.go | all; concurrency in `TagsCache` (C43), reuse in `EncodeState` (C29) | embedded structs get no special treatment in the code either |
| decode.go, untyped | all of `readHeader` to `decodeRegexp`, REFP/ALIAS, objects, frozen objects, `DecompressDocument` | what `*ptr` holds after an error |
| decode.go, typed (`*ViaReflection`, `setInt`, `setBinary`, `findUnmarshaler`, `decodeREFP_ALIAS`) | `Model/Typed`: the contents of one variable, no sharing, no REFP or ALIAS in the place of a typed item.  `Model/TypedMem`: the same code with variables in memory, pointers, REFP and ALIAS.  The two are related by `unmarshalInto_follows` (Proof/SimDecode): when no part of a variable is shared and the first succeeds, so does the second, the variable holds the same afterwards, pointers, maps and non-empty slices stay, and nothing else changes | in `Model/TypedMem`: references from a typed item to an untyped compound item and back, UnmarshalBinary of objects inside interfaces (all three are panics of the model).  `Model/TypedCall`: `UnmarshalHeaderBody` with all arguments on a used Decoder, except nil pointers to a type and pointers to `interface{}` variables that are not nil (outside typed memory).  In both: targets of the package's own Perl types, non-empty interfaces, named byte slices, map keys that are not strings |
| decode.go `RegisterName`, `getUnmarshalerType`, `instantiateZero`, `findUnmarshaler` of new values | all (Model/Registry); the other models take the resulting registry as a parameter | methods UnmarshalBinary that panic or whose answer depends on more than the data |
| merge.go | all | bytes returned together with an error; the state after a crash; changing the public fields between calls |
| snappy.go, zlib.go, zstd.go | framing, length fields, errors | the codecs; `zlib_purego.go`/`zstd_*.go` glue beyond calling them; that `SnappyCompressor.compress` with `Incremental` writes into the caller's slice (item 20 below) |
| fuzz.go | `Fuzz` (Model/Fuzz); `cmp.Equal` is a relation on finite data (`CmpEqual`) | `FuzzStructure` |

Further simplifications:

* Memory addresses are abstract numbers; a struct and its first field have different addresses in the model (in Go they are
  equal, which `encodePointer` could confuse; C30_overlap shows a confusion of the same kind).  C55 therefore says nothing
  about graphs with pointers to a struct and to its first field.  In the copies of C55, an element of a slice and a
  pointer to that element become two variables, as in the code.
* The Go stack is unbounded.  C26 speaks of the recursion limit only: with the default limit of 2^31-1 a cyclic value
  exhausts the stack first, which kills the program.  Deeply nested input can do the same to `Unmarshal` (C13, C14).
* `make` succeeds when its size is within limits; C27 bounds the sizes.
* C43: map operations are atomic and memory is sequentially consistent; what a Go data race does beyond that is outside
  the model (the race itself is exhibited: C43_race).
* `DecompressDocument`: `dst` and `b` do not overlap.
* Values returned by UnmarshalBinary (`thawed`) are opaque; they cannot be marshalled again in the model.
* OBJECTV with an offset ahead of the tag is in the grammar `G`, as in the decoder.

## 4. Where the code disagrees with the properties

Each item is a theorem unless marked "by reading".

1. Even ZIGZAG payloads decode to wrong numbers (C45_fails, C45_actual, C17_fails, C18_zigzag_fails).
2. Varints of 2^64 and more are silently truncated (C46_exact_fails).
3. A header length that overflows crashes Unmarshal, UnmarshalHeader and DecompressDocument (C13_fails, C13_header_fails,
   C13_body_fails, C25_header_fails); an absurd zlib size crashes Unmarshal (C13_zlib_fails).
4. COPY inside a copied item is refused even for keys (C18_copyKey_fails); a REFP to undef panics (C18_refpUndef_fails);
   PerlCompat decoders refuse frozen objects (C18_freeze_fails).
5. A panic recovered inside COPY leaves the Decoder unusable for COPY (C28_fails); with typed variables an integer where a
   string is expected is enough (C28_typed_fails).
6. COPY offsets in user headers count from different origins when written and when read: silent corruption (C08_fails).
7. Version 1 with incremental Snappy writes documents that decode to other data (C21_fails).
8. DecompressDocument crashes if the body decompresses to nothing (C25_empty_fails), and changes version 1 documents that
   refer to the version byte (C24_fails).
9. Shared pointers: the reference for a later occurrence names the REFN item, one level too high (C30_fails); pointers to
   different variables at one address are confused (C30_overlap); what is decoded depends on the map order (C07_fails).
10. Decoding a COPY of a tracked item re-tracks it, so that a later REFP shares storage with the copy (C31_fails).
    A reference to an object from inside the object is nil (C31_cycle_cut).
11. PerlCompat decoders do not get frozen objects back (C33_fails).
12. Tagged unexported fields make Marshal fail (C41_fails).
13. Negative numbers of named types int8 to int64 arrive with 2^64 added (C44_fails); named unsigned types cannot be
    marshalled (C44_uint_fails).
14. Concurrent Marshal races on the tag cache (C43_race).
15. Merger, wrong results: moving a REFP or ALIAS sets the track bit of a byte five before the target, because
    merge.go:496 uses an offset relative to the body as an index; so a string of a document `Marshal` wrote comes out
    changed, with default options (C35_fails, C35_fails_marshal).  A REFP to an object makes the result undecodable
    (C35_fails_object).  DedupeStrings confuses strings and binary data (C35_fails_dedupe).  Documents with an empty body are
    counted (C36_fails); a failed Append leaves key offsets behind that corrupt later documents (C37_fails); a body that zlib
    makes longer is cut off (C39_fails); padding defeats KeepFlat (C40_fails); Finish after a failed Finish returns the
    unfinished buffer without an error (C38_after_error).  A FLOAT that is cut off takes in memory behind the document
    (C69_fails).
    Refused documents of `Marshal`: two structs or objects of one class, because the second class name is a COPY (C53_fails);
    regexps without modifiers, and empty class names, because a SHORT_BINARY of length 0 is taken for a BINARY
    (C53_fails_regexp); a reference right behind its target (C53_fails_self).  It refuses every OBJECTV that names the class of
    an OBJECT (C53_fails_objectv).  So it refuses its own output if two objects of one class were merged (C70_fails).
    With KeepFlat, a document whose array is tracked is refused if it contains a COPY: the sorted list of tracked offsets
    begins with the array, which is skipped, and the merger waits for it for ever (C70_front).
    Crashes: a header that does not fit (C68_fails), items cut off at the end and one-byte bodies with KeepFlat
    (C68_fails_short, C40_crash), a document `Marshal` wrote with a regexp without modifiers (C68_fails_marshal), a document
    that names a class of a document refused before (C68_fails_after), more than 2^35 elements announced (C68_fails_finish),
    a compressor that makes the body longer (C68_fails_compress).
16. Typed decoding: pointers to basic types cannot be unmarshalled (C48_fails_int); a non-empty slice keeps its length and
    drops elements (C51_fails); an entry for an existing key of a map of integers is an error (C52_fails).  A document can
    make Unmarshal panic with "assignment to entry in nil map" if the target type has a map of pointers to itself: a
    reference makes an entry point back at the map's owner, an UNDEF decoded through it sets the map to nil while the loop
    over its entries is running (C49_fails, docNilMap of 23 bytes).
17. A pointer to a slice as typed target fails (C48_fails_slice); STR_UTF8 into `[]byte` fails (strUtf8_not_bytes); integer
    `json.Number`s come back as ints (C34).  By reading: maps with a named string key type can be marshalled but not
    unmarshalled.
18. A `json.Number` such as `18446744073709551616.5` is written as a string (C62_fails).
19. `RegisterName` takes values whose type is not a pointer, but `instantiateZero` panics for them, so every document with an
    object of that class is refused from then on (C71_fails).  The branch of `RegisterName` for values whose address has the
    method always panics, and the message behind it is never shown (C71_fails_addr).
20. By reading: `SnappyCompressor{Incremental: true}.compress` writes the length into the slice it is given.
21. UnmarshalHeader of a document whose header data has a COPY of offset 4 can change by DecompressDocument, which rewrites
    that byte (C63_fails).
22. UnmarshalHeader takes the first byte of the body for header flags if the header length zero is written with more than
    one byte (C60_fails).
23. Offset 0 of COPY, OBJECTV and OBJECTV_FREEZE is the last byte of the header; the decoder accepts it, so what a body is
    decoded to depends on the header (C61_fails).
24. ALIAS and REFP in the place of a struct assign a tracked struct of the same type as a whole, with its unexported fields
    (C64_fails, docAlias of 14 bytes).
25. Not everything Unmarshal yields can be marshalled again: with PerlCompat a tracked reference to a string is decoded to an
    `*interface{}`, for which Marshal returns an error (C73_fails); a `PerlFreeze` is written as an ordinary struct
    (C73_fails_freeze); what a REFP is decoded to comes back without the pointer (C73_fails_refp).
26. The ten bytes `=\xF3rl 03 00 AB 01 2E 01` (an array whose element is an ALIAS of the array) are decoded to a slice that is its
    own element.  Marshal of it nests up to its limit, whatever that is (C74_loop).  By default the limit is 2^31-1, so the
    program runs out of stack first, and Go programs cannot recover from that (stack size is not in the model).
27. `Fuzz` checks the length of the user header before it calls Unmarshal, as Unmarshal does, but a body that begins at offset 0
    passes both checks and crashes (C75_fails_crash).  It reports a bug for every NaN (C75_fails_nan), and for the documents of
    items 25 and 26 (C75_fails_loop).
28. By reading, not in the model: `decodeRegexp` keeps slices of the input as pattern and modifiers ("TODO perhaps, copy values").
    Everything else that is decoded is a copy.  So a `PerlRegexp` changes when the caller reuses the document's buffer
    (uncompressed documents), and `append` to a pattern overwrites the document.
29. Deduplication of names can make a document longer: an empty key takes two bytes, a reference to one at offset 128 or
    later three (C77_fails).
30. By reading, not in the model: `FuzzStructure` reports a bug for the document of an empty hash already.  Nil maps and slices
    are written as HASH 0 and ARRAY 0 and come back empty but not nil, which `reflect.DeepEqual` tells apart.

## 5. Status of the properties

`MANIFEST.json` has the status and a note per property.  "partial" means: either the code violates the property as stated
(then there is a `*_fails` theorem and the partial theorem says what holds instead), or the theorem has a hypothesis the
property does not have (then the note says which).

## 6. Wrong programs the theorems do not reject

* m77 (the typed decoder does not check the size of a slice before it allocates it), made in `Model/Typed`: that model says nothing
  about variables after a failure.  The same edit of `Model/TypedMem` is rejected (C65_sizes).
* m52 (the merger does not set the track bit at the target of a REFP it moves) repairs more than it breaks: the bit goes to
  the wrong byte.  What fails under it is C35_fails.

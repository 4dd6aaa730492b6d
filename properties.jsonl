{"id": "C01", "title": "Every signed integer survives Marshal/Unmarshal", "statement": "For every Go value of type int, int8, int16, int32 or int64, Unmarshal of Marshal of it into an empty interface{} succeeds and yields an int with exactly the same numeric value, for every encoder version.", "quantifier": "all 2^64 int64 values, all signed integer kinds, all encoder versions 1-3 and flags", "why_tests_cant": "the domain has 2^64 values and four wire forms (POS, NEG, VARINT, ZIGZAG) with boundaries between them", "anchors": ["Go/sereal/encode.go: Encoder.encodeInt, varint", "Go/sereal/decode.go: Decoder.decodeInt, decodeVarint, decodeZigzag, varintdecode"]}
{"id": "C02", "title": "Every unsigned integer survives Marshal/Unmarshal", "statement": "For every Go value of type uint, uint8, uint16, uint32 or uint64, Unmarshal of Marshal of it into an empty interface{} succeeds and yields the same number: as an int when it is at most 2^63-1 and as a uint otherwise.", "quantifier": "all 2^64 uint64 values, all unsigned kinds, all encoder versions", "why_tests_cant": "2^64 inputs; the upper half goes through a signed intermediate", "anchors": ["Go/sereal/encode.go: Encoder.encodeInt", "Go/sereal/decode.go: Decoder.decode (VARINT case)"]}
{"id": "C03", "title": "Floats survive bit for bit", "statement": "For every float32 and float64 bit pattern (NaN payloads, infinities, negative zero, subnormals included) Unmarshal of Marshal yields a value of the same type with the same bits.", "quantifier": "all 2^32 and 2^64 bit patterns", "why_tests_cant": "tests sample a few finite values; NaN payloads do not even compare equal", "anchors": ["Go/sereal/encode.go: encodeFloat, encodeDouble", "Go/sereal/decode.go: decodeFloat, decodeDouble"]}
{"id": "C04", "title": "Strings and byte slices survive, and keep their type", "statement": "For every Go string and every []byte of at most 2^31-1 bytes, Unmarshal of Marshal yields the same bytes as a string, respectively as a []byte. Longer ones are accepted by Marshal but always rejected by Unmarshal.", "quantifier": "all byte strings of every length", "why_tests_cant": "unbounded lengths, three wire forms, length boundaries at 32 and 128 and 2^31", "anchors": ["Go/sereal/encode.go: encodeString, encodeBytes", "Go/sereal/decode.go: decodeBinary, decode"]}
{"id": "C05", "title": "Arbitrary nested data survives Marshal/Unmarshal", "statement": "For every finite nest of nil, booleans, integers, floats, strings, byte slices, []interface{} and map[string]interface{}, of any depth and size, if Marshal succeeds with a body that fits the decoder's limits then Unmarshal of the document into an empty interface{} succeeds and yields the same data: same shape, same keys, same leaves.", "quantifier": "all data trees of every depth and size, every map iteration order, encoder versions 1-3, DisableDedup on or off, encoder PerlCompat on or off", "why_tests_cant": "unbounded trees; Go randomises map iteration order, and key deduplication makes the bytes of a subtree depend on everything emitted before it", "anchors": ["Go/sereal/encode.go: Encoder.MarshalWithHeader, encode, encodeIntfArray, encodeStrMap, encodeString", "Go/sereal/decode.go: Decoder.UnmarshalHeaderBody, decode, decodeHash, decodeArray, decodeStringish"]}
{"id": "C06", "title": "Key deduplication is invisible", "statement": "Documents produced with and without DisableDedup from the same value decode to the same data, and every COPY tag the encoder emits refers to an earlier, complete, literal copy of the same string.", "quantifier": "all values, all histories of keys and class names seen so far", "why_tests_cant": "whether a key is emitted as COPY depends on the entire history of the document", "anchors": ["Go/sereal/encode.go: encodeString, encodeBytes, marshalState.strTable", "Go/sereal/decode.go: decodeStringish"]}
{"id": "C07", "title": "Map iteration order does not matter", "statement": "Two Marshal calls on the same value that range over its maps in different orders produce documents that decode to the same data.", "quantifier": "all values, all pairs of iteration orders", "why_tests_cant": "Go picks iteration orders at random; n! orders per map", "anchors": ["Go/sereal/encode.go: encodeStrMap, encodeMap, encodeStruct"]}
{"id": "C08", "title": "User header data survives", "statement": "For encoder versions 2 and 3, UnmarshalHeaderBody of MarshalWithHeader(h, b) returns header data equal to h.", "quantifier": "all header values and bodies", "why_tests_cant": "depends on interaction of the header's length, its internal offsets and the position the decoder starts from", "anchors": ["Go/sereal/encode.go: MarshalWithHeader", "Go/sereal/decode.go: UnmarshalHeaderBody"]}
{"id": "C09", "title": "The body does not depend on the header", "statement": "For every header value h and body b that both encode, Unmarshal of MarshalWithHeader(h, b) yields the same data as Unmarshal of Marshal(b); version 1 silently drops the header.", "quantifier": "all headers, all bodies, versions 1-3", "why_tests_cant": "offsets are relative to positions that shift with the header size", "anchors": ["Go/sereal/encode.go: MarshalWithHeader", "Go/sereal/decode.go: UnmarshalHeaderBody"]}
{"id": "C10", "title": "Every produced document identifies itself", "statement": "Every document returned by Marshal or MarshalWithHeader satisfies LooksLikeSereal, carries the magic string of its version and its version number, and passes the decoder's header checks.", "quantifier": "all values, headers, encoder configurations and codecs", "why_tests_cant": "all outputs of the encoder", "anchors": ["Go/sereal/encode.go: MarshalWithHeader", "Go/sereal/decode.go: readHeader, checkHeader, LooksLikeSereal"]}
{"id": "C11", "title": "Header acceptance is exactly the documented table", "statement": "Unmarshal accepts a header iff the magic is '=srl' with version 1 or 2, or '=\\xF3rl' with version 3 or 4; every other buffer is rejected with the documented error before any body byte is read.", "quantifier": "all byte strings of every length", "why_tests_cant": "all byte strings", "anchors": ["Go/sereal/decode.go: readHeader, checkHeader"]}
{"id": "C12", "title": "Accidental UTF-8 encoding is always detected", "statement": "If a version 3 document (every byte of it read as a Latin-1 character) is re-encoded as UTF-8, Unmarshal rejects the result with ErrBadHeaderUTF8.", "quantifier": "all documents starting with the version 3 magic", "why_tests_cant": "all documents", "anchors": ["Go/sereal/decode.go: readHeader", "Go/sereal/const.go: magicHeaderBytesHighBitUTF8"]}
{"id": "C13", "title": "Unmarshal never crashes the program", "statement": "On every byte string, Unmarshal and UnmarshalHeader into an empty interface{} return normally (with or without an error) and never raise a Go runtime error such as index out of range.", "quantifier": "all byte strings, all decoder flags", "why_tests_cant": "arbitrary malformed input; one uncovered index expression is enough", "anchors": ["Go/sereal/decode.go: UnmarshalHeaderBody, readHeader, decode, decodeStringish, decodeHash, decodeArray, decodeBinary"]}
{"id": "C14", "title": "Unmarshal terminates on every input", "statement": "On every byte string Unmarshal into an empty interface{} takes a number of recursive steps bounded by a fixed function of the input length, COPY tags included.", "quantifier": "all byte strings, all decoder flags and states", "why_tests_cant": "non-termination cannot be observed by a test; COPY tags jump backwards", "anchors": ["Go/sereal/decode.go: decode, decodeStringish"]}
{"id": "C15", "title": "Truncated documents are rejected", "statement": "If a raw document decodes consuming all of its body, every strict prefix of it is rejected with an error; in particular every strict prefix of a raw document produced by Marshal.", "quantifier": "all documents, all cut points", "why_tests_cant": "every crash point of a writer, for every document", "anchors": ["Go/sereal/decode.go: UnmarshalHeaderBody, decode"]}
{"id": "C16", "title": "Bytes after the body item are ignored", "statement": "If Unmarshal of a raw document succeeds, Unmarshal of that document followed by any bytes succeeds with the same result.", "quantifier": "all documents, all suffixes", "why_tests_cant": "all suffixes", "anchors": ["Go/sereal/decode.go: decode"]}
{"id": "C17", "title": "What Unmarshal accepts is a document of the format, and the result is what the document denotes", "statement": "If Unmarshal into an empty interface{} succeeds on a raw document free of REFP and ALIAS, the body is an item of the Sereal grammar and the result is the Go view of the tree that grammar assigns to it.", "quantifier": "all byte strings, all decoder flags", "why_tests_cant": "soundness over all inputs", "anchors": ["Go/sereal/decode.go: decode", "sereal_spec.pod"]}
{"id": "C18", "title": "Every well-formed item is accepted", "statement": "Every body that is an item of the supported Sereal grammar, with acyclic backward references, is accepted by Unmarshal into an empty interface{}, and the result is the Go view of the tree the grammar assigns.", "quantifier": "all items of the grammar, all paddings, all placements of track flags, all decoder flags", "why_tests_cant": "an infinite language", "anchors": ["Go/sereal/decode.go: decode", "sereal_spec.pod"]}
{"id": "C19", "title": "COPY cannot loop and cannot look ahead", "statement": "A document in which a COPY tag names its own or a later offset, or is reached while expanding another COPY, is rejected with a corrupt-document error.", "quantifier": "all documents, all positions of the COPY tag", "why_tests_cant": "adversarial self-referential documents", "anchors": ["Go/sereal/decode.go: decode, decodeStringish"]}
{"id": "C20", "title": "REFP and ALIAS only reach items already seen and tracked", "statement": "A REFP or ALIAS whose offset is not the offset of a tag that carried the track flag and that has already been visited is rejected with a corrupt-document error.", "quantifier": "all documents and decoder states", "why_tests_cant": "depends on the whole decoding history", "anchors": ["Go/sereal/decode.go: decodeREFP_ALIAS"]}
{"id": "C21", "title": "Compression is transparent", "statement": "With any lossless codec, if Marshal succeeds with a compressor configured, Unmarshal of the document yields the same data as without compression.", "quantifier": "all values, all lossless codecs, all thresholds, all accepted version/compressor combinations", "why_tests_cant": "all bodies and codecs; framing lengths are varints of unbounded size", "anchors": ["Go/sereal/snappy.go: SnappyCompressor", "Go/sereal/zlib.go: ZlibCompressor", "Go/sereal/encode.go: MarshalWithHeader", "Go/sereal/decode.go: UnmarshalHeaderBody, documentDecompressor"]}
{"id": "C22", "title": "The compression threshold is exact", "statement": "A document is compressed iff a compressor is set and the threshold is 0 or the body has at least threshold bytes; otherwise its bytes are identical to those produced without a compressor.", "quantifier": "all values, thresholds and codecs", "why_tests_cant": "all sizes around every threshold", "anchors": ["Go/sereal/encode.go: MarshalWithHeader"]}
{"id": "C23", "title": "Forbidden compression/version combinations are rejected on both sides", "statement": "Marshal never emits a document whose document type is forbidden for its version, and Unmarshal rejects every document whose type nibble is forbidden for its version.", "quantifier": "all values, configurations and byte strings", "why_tests_cant": "all inputs", "anchors": ["Go/sereal/encode.go: MarshalWithHeader", "Go/sereal/decode.go: documentDecompressor"]}
{"id": "C24", "title": "DecompressDocument only changes the compression", "statement": "If DecompressDocument succeeds, its result is marked raw, keeps magic, version and user header, and Unmarshal of it gives the same result as Unmarshal of the original; on a raw document it returns the document unchanged; applying it twice equals applying it once.", "quantifier": "all documents, all codecs, all destination buffers", "why_tests_cant": "all documents", "anchors": ["Go/sereal/decode.go: DecompressDocument, hasSameBuffer"]}
{"id": "C25", "title": "DecompressDocument never crashes", "statement": "DecompressDocument returns normally on every byte string and every destination buffer.", "quantifier": "all byte strings, all destination lengths and capacities", "why_tests_cant": "buffer capacity corner cases", "anchors": ["Go/sereal/decode.go: DecompressDocument, hasSameBuffer"]}
{"id": "C26", "title": "The recursion limit is exact and bounds work on cyclic data", "statement": "With MaxRecursionDepth = n > 0, Marshal of nested []interface{}/map[string]interface{} data fails with ErrMaxRecursionLimit iff its nesting depth is at least n; on cyclic slices and maps Marshal always returns ErrMaxRecursionLimit instead of running forever.", "quantifier": "all data, all limits, all object graphs including cyclic ones", "why_tests_cant": "cyclic graphs and every depth", "anchors": ["Go/sereal/encode.go: remainingRecursion, encodeIntfArray, encodeStrMap, encodePointer"]}
{"id": "C27", "title": "Decoding cannot be made to allocate more than the input warrants", "statement": "While decoding a document, no container or string is allocated with more elements than there are bytes in the input, and the total number of elements allocated is bounded by a fixed polynomial in the input length.", "quantifier": "all byte strings, all decoder flags", "why_tests_cant": "amplification attacks range over all inputs", "anchors": ["Go/sereal/decode.go: decodeHash, decodeArray, decodeBinary"]}
{"id": "C28", "title": "A Decoder can be reused", "statement": "The result of an Unmarshal call on a Decoder does not depend on the documents decoded before with the same Decoder, whether those succeeded or failed.", "quantifier": "all histories of Unmarshal calls", "why_tests_cant": "state carried between calls: every history", "anchors": ["Go/sereal/decode.go: Decoder (tracked, copyDepth), UnmarshalHeaderBody"]}
{"id": "C29", "title": "An Encoder can be reused", "statement": "Marshalling a value with an Encoder gives the same bytes whatever was marshalled before with that Encoder, successfully or not.", "quantifier": "all histories of Marshal calls", "why_tests_cant": "every history", "anchors": ["Go/sereal/encode.go: Encoder, marshalState"]}
{"id": "C30", "title": "Shared Go pointers become shared references", "statement": "If the same pointer occurs twice in a value, the second occurrence is encoded as a reference to the item that the first occurrence points at.", "quantifier": "all object graphs", "why_tests_cant": "aliasing graphs", "anchors": ["Go/sereal/encode.go: encodePointer, getPointer"]}
{"id": "C31", "title": "References inside a document resolve to the referenced data", "statement": "In a document where a REFP names a tracked, completed item, the decoded reference points at data equal to that item (or is that data itself when DisableReferentialIntegrity is set); referenced hashes and arrays are shared, not copied.", "quantifier": "all documents with acyclic references", "why_tests_cant": "all documents", "anchors": ["Go/sereal/decode.go: decodeREFP_ALIAS, decode"]}
{"id": "C32", "title": "Perl types survive between PerlCompat encoder and decoder", "statement": "PerlObject, PerlRegexp, PerlWeakRef, PerlUndef and the canonical undef survive Marshal by a version 3 encoder and Unmarshal by a PerlCompat decoder, with class names, patterns, modifiers and canonicity preserved, at any nesting depth.", "quantifier": "all nests of Perl values, all class-name repetition patterns", "why_tests_cant": "unbounded nests; class names are deduplicated by offset", "anchors": ["Go/sereal/encode.go: encode (Perl types), encodePointer", "Go/sereal/decode.go: decode, decodeObjectViaReflection, decodeRegexp"]}
{"id": "C33", "title": "Frozen objects arrive intact", "statement": "If a value's MarshalBinary returns data d, then decoding hands exactly d to the registered UnmarshalBinary of its class, or yields a PerlFreeze with its class name and d when none is registered; with a PerlCompat decoder it yields a PerlFreeze.", "quantifier": "all class names, all payloads, all positions in the document", "why_tests_cant": "all payloads and positions", "anchors": ["Go/sereal/encode.go: encodeViaReflection", "Go/sereal/decode.go: decodeObjectFreezeViaReflection"]}
{"id": "C34", "title": "json.Number never loses integer precision", "statement": "A json.Number whose text is an integer decodes to that int if it fits int64 and to the identical text otherwise.", "quantifier": "all decimal texts of every length", "why_tests_cant": "all integers of any size", "anchors": ["Go/sereal/encode.go: encodeJsonNumber"]}
{"id": "C35", "title": "A merged document is the list of its parts", "statement": "After Append of documents d1..dn all succeeded, Finish returns a document that decodes to the array of the values of d1..dn in order.", "quantifier": "all sequences of documents, all contents", "why_tests_cant": "offset relocation and string deduplication across documents depend on everything appended before", "anchors": ["Go/sereal/merge.go: Merger.Append, buildTrackTable, mergeItems, Finish"]}
{"id": "C36", "title": "Merger element counts are right", "statement": "Append returns the number of elements it added, and the array length written by Finish is the sum of those numbers.", "quantifier": "all sequences of Append calls", "why_tests_cant": "all histories", "anchors": ["Go/sereal/merge.go: Append, Finish"]}
{"id": "C37", "title": "A failed Append changes nothing", "statement": "If Append returns an error, the document later returned by Finish is the same as if that Append had never been called.", "quantifier": "all histories of Append calls including failing ones", "why_tests_cant": "all histories and failure points", "anchors": ["Go/sereal/merge.go: Append, mergeItems"]}
{"id": "C38", "title": "Finish is final", "statement": "After Finish, Append always fails and changes nothing, and Finish returns the same document again.", "quantifier": "all histories of Append and Finish calls", "why_tests_cant": "all histories", "anchors": ["Go/sereal/merge.go: Append, Finish"]}
{"id": "C39", "title": "Merged documents can be compressed", "statement": "With any lossless codec the compressed result of Finish decodes to the same array as the uncompressed one.", "quantifier": "all contents and codecs", "why_tests_cant": "depends on buffer capacities and incompressible data", "anchors": ["Go/sereal/merge.go: Finish"]}
{"id": "C40", "title": "KeepFlat splices top-level arrays", "statement": "With KeepFlat, appending array documents yields the concatenation of their elements; documents that are not arrays are added as one element.", "quantifier": "all sequences of documents", "why_tests_cant": "all sequences", "anchors": ["Go/sereal/merge.go: expectedElements, mergeItems"]}
{"id": "C41", "title": "Struct fields are mapped by tag", "statement": "Marshal of a struct emits exactly one entry per field that is exported or tagged and not tagged '-', under its tag or else its name; fields sharing a name collapse to the last one.", "quantifier": "all struct types and values", "why_tests_cant": "all struct shapes", "anchors": ["Go/sereal/tagscache.go: tagsCache.Get", "Go/sereal/encode.go: encodeStruct"]}
{"id": "C42", "title": "Typed integer decoding", "statement": "Decoding an integer into a variable of an integer kind wide enough for it stores exactly that integer; into a narrower kind it stores the integer wrapped to that width, with no error.", "quantifier": "all integers, all kinds", "why_tests_cant": "all integers", "anchors": ["Go/sereal/decode.go: setInt, decodeViaReflection"]}
{"id": "C43", "title": "Concurrent package-level Marshal", "statement": "For every interleaving of goroutines calling Marshal on struct values through the shared default encoder, each call uses the field map of its own type, and no two goroutines access the tag cache map at the same time with one of them writing.", "quantifier": "all interleavings, all numbers of goroutines", "why_tests_cant": "schedules", "anchors": ["Go/sereal/tagscache.go: tagsCache.Get", "Go/sereal/encode.go: defaultEncoder, Marshal"]}
{"id": "C44", "title": "Integers of named types keep their value", "statement": "A value of a named integer type (type T int8 and the like) decodes into interface{} as the same number.", "quantifier": "all kinds and values", "why_tests_cant": "all kinds and values", "anchors": ["Go/sereal/encode.go: encodeViaReflection, encodeInt"]}
{"id": "C45", "title": "ZIGZAG items decode as the specification says", "statement": "A ZIGZAG item with varint payload n decodes to n/2 when n is even and -(n+1)/2 when n is odd.", "quantifier": "all payloads", "why_tests_cant": "2^64 payloads", "anchors": ["Go/sereal/decode.go: decodeZigzag"]}
{"id": "C46", "title": "Varint decoding is exact or an error", "statement": "Decoding a varint yields the number its 7-bit groups spell if that fits 64 bits, consuming exactly its bytes, and an error otherwise; encoding is its left inverse and is never longer than needed.", "quantifier": "all byte strings", "why_tests_cant": "all byte strings", "anchors": ["Go/sereal/decode.go: varintdecode", "Go/sereal/encode.go: varint"]}
{"id": "C47", "title": "Typed values survive a round trip", "statement": "For every Go value of a type built from booleans, integers, floats, strings, byte slices, slices, arrays, maps with string keys, structs whose fields can be set and have different keys, types with MarshalBinary/UnmarshalBinary and interfaces holding plain data: Unmarshal of Marshal(v) into a new variable of the same type succeeds and gives back the same data, for every encoder configuration, with or without compression.", "quantifier": "all values of all such types, all encoder configurations", "why_tests_cant": "types and values are unbounded; reflect-based code has one path per kind", "anchors": ["Go/sereal/encode.go: encode, encodeViaReflection", "Go/sereal/decode.go: decodeViaReflection, decodeArrayViaReflection, decodeHashViaReflection"]}
{"id": "C48", "title": "Values with pointers survive a typed round trip", "statement": "As C47 for types that also contain pointers: the pointers come back, pointing to equal values.", "quantifier": "all values, all types", "why_tests_cant": "as C47, and pointers are written only if the pointee is seen for the first time", "anchors": ["Go/sereal/encode.go: encodePointer", "Go/sereal/decode.go: decodeViaReflection, decodeREFP_ALIAS"]}
{"id": "C49", "title": "Decoding into typed variables never crashes", "statement": "For every byte string, every type and every contents of the variable, Unmarshal into the variable returns a result or an error; no Go run-time panic reaches the caller.", "quantifier": "all inputs, all types, all contents", "why_tests_cant": "every combination of a tag and a kind of variable", "anchors": ["Go/sereal/decode.go: decodeViaReflection and everything it calls"]}
{"id": "C50", "title": "A hash decoded into a struct sets exactly the fields it names", "statement": "Each entry of the hash goes to the field with that tag or name; entries without a field are ignored; fields without an entry keep their contents.", "quantifier": "all hashes, all structs", "why_tests_cant": "order of entries, unused entries, nested values", "anchors": ["Go/sereal/decode.go: decodeHashViaReflection", "Go/sereal/tags.go"]}
{"id": "C51", "title": "A slice variable receives all elements of an array", "statement": "After Unmarshal of an array into a slice variable the slice has the elements of the array, whatever it held before.", "quantifier": "all arrays, all slices", "why_tests_cant": "length mismatches only show with variables that were used before", "anchors": ["Go/sereal/decode.go: decodeArrayViaReflection"]}
{"id": "C52", "title": "A hash decoded into a map adds its entries", "statement": "After Unmarshal of a hash into a map variable the map has the entries of the hash, and the other entries it had before.", "quantifier": "all hashes, all maps", "why_tests_cant": "depends on the earlier contents of the variable", "anchors": ["Go/sereal/decode.go: decodeHashViaReflection"]}
{"id": "C53", "title": "The merger accepts the documents Marshal writes", "statement": "Append succeeds, with result 1, for every document Marshal writes in version 2 or 3, in any number and order, and then Finish succeeds.", "quantifier": "all values, all encoder configurations of version 2 and 3, all sequences of documents", "why_tests_cant": "the merger parses documents with its own tag walker, which must agree with every shape the encoder can produce, in combination with the tables left by earlier documents", "anchors": ["Go/sereal/merge.go: Append, Finish, readString, offsets", "Go/sereal/encode.go: encode"]}
{"id": "C54", "title": "The merger's compression threshold is exact", "statement": "Finish compresses iff a compressor is set and the threshold is 0 or the uncompressed merged document has at least threshold bytes; otherwise it returns the document a merger without compression returns.", "quantifier": "all sequences of Append calls, all thresholds and codecs", "why_tests_cant": "all sizes around every threshold", "anchors": ["Go/sereal/merge.go: Finish"]}
{"id": "C55", "title": "Graphs of structs survive Marshal and Unmarshal", "statement": "For every type built from booleans, integers, floats, strings, byte slices, slices, arrays, string maps, structs and pointers to structs, and every value of such a type, with shared pointers and cycles: Unmarshal of Marshal's document into a new variable of the type succeeds and leaves a copy of the graph. Every struct pointed at is copied exactly once, to a new variable, equal pointers are equal in the copy and different ones are different, and no other variable is changed.", "quantifier": "all such types, all values and pointer graphs (cycles included), all encoder configurations, all codecs", "why_tests_cant": "the shapes of pointer graphs are unbounded; references interact with track flags, the pointer table and the nesting at which each struct is first met", "anchors": ["Go/sereal/encode.go: encodePointer, encodeStruct", "Go/sereal/decode.go: decodeREFP_ALIAS, decodeViaReflection, decodeHashViaReflection, decodeArrayViaReflection"]}
{"id": "C56", "title": "Version, compression, deduplication and header do not show in the decoded data", "statement": "Two documents marshalled from the same value with the same order of map iteration, by encoders that differ in protocol version, compressor, compression threshold and DisableDedup, and with different user headers, have the same outcome of Unmarshal with every decoder: the same error, or the same value in the same memory.", "quantifier": "all values (shared pointers and cycles included), all headers, all pairs of settings, all lossless codecs, all decoder configurations", "why_tests_cant": "offsets of REFP and COPY differ between the documents in ways that depend on the whole history; all graphs times all pairs of settings", "anchors": ["Go/sereal/encode.go: MarshalWithHeader, encodeString, encodeBytes, encodePointer", "Go/sereal/decode.go: UnmarshalHeaderBody, decode, decodeStringish, decodeREFP_ALIAS"]}
{"id": "C57", "title": "Version, compression, deduplication and header do not show in typed variables", "statement": "Two documents marshalled from the same value with the same order of map iteration, by encoders that differ in protocol version, compressor, compression threshold and DisableDedup, and with different user headers, have the same outcome of Unmarshal into a variable of any type, whatever the memory held before: the same error, or the same contents of memory afterwards.", "quantifier": "all values (shared pointers and cycles included), all headers, all pairs of settings, all lossless codecs, all decoder configurations, all types and contents of the target", "why_tests_cant": "all graphs times all pairs of settings times all target types and prior contents; offsets of REFP and COPY differ between the documents", "anchors": ["Go/sereal/encode.go: MarshalWithHeader, encodeString, encodeBytes, encodePointer", "Go/sereal/decode.go: decodeViaReflection, decodeArrayViaReflection, decodeHashViaReflection, decodeREFP_ALIAS"]}
{"id": "C58", "title": "Unmarshal touches only memory that belongs to its target", "statement": "Unmarshal(b, &x), whether it succeeds or fails, leaves every variable and map that cannot be reached from x (through pointers, slices, maps and interfaces) as it was; afterwards x leads only to what it led to before and to newly allocated memory.", "quantifier": "all inputs (hostile ones included), all decoder configurations, all target types, all contents of memory", "why_tests_cant": "all documents times all memory graphs; references in a document are resolved through a table of earlier targets, so a hostile document could redirect writes", "anchors": ["Go/sereal/decode.go: decodeViaReflection, decodeArrayViaReflection, decodeHashViaReflection, decodeREFP_ALIAS, decodeObjectFreezeViaReflection, setBinary"]}
{"id": "C59", "title": "UnmarshalHeaderBody is UnmarshalHeader followed by Unmarshal", "statement": "UnmarshalHeaderBody(b, vh, vb) returns the same error and has the same effect on memory and on the Decoder as err := UnmarshalHeader(b, vh); if err == nil { err = Unmarshal(b, vb) }.", "quantifier": "all inputs (hostile ones included), all arguments (nil, not a pointer, pointers to interface{} or typed variables, the same variable twice), all Decoder states, all contents of memory", "why_tests_cant": "all documents times all pairs of targets and all prior states; the two halves share a Decoder and memory", "anchors": ["Go/sereal/decode.go: UnmarshalHeaderBody, UnmarshalHeader, Unmarshal"]}
{"id": "C60", "title": "UnmarshalHeader does not look at the body", "statement": "The outcome of UnmarshalHeader(b, v) depends only on the header of b: replacing everything behind the header changes neither the result nor the effect on memory.", "quantifier": "all headers, all pairs of bodies (malformed and compressed ones included), all targets, all Decoder states, all contents of memory", "why_tests_cant": "all pairs of documents that share a header; hostile headers may contain offsets that point behind the header", "anchors": ["Go/sereal/decode.go: UnmarshalHeaderBody, UnmarshalHeader, readHeader"]}
{"id": "C61", "title": "The header does not show in what the body is decoded to", "statement": "Two documents of protocol version 2 or later with the same document type and the same body have the same outcome of Unmarshal into any variable, whatever their versions and user headers: the same error, or the same effect on memory.", "quantifier": "all bodies (hostile and compressed ones included), all pairs of headers, all targets, all decoder configurations, all contents of memory", "why_tests_cant": "all bodies times all pairs of headers and all targets; offsets in the body count from the last byte of the header", "anchors": ["Go/sereal/decode.go: UnmarshalHeaderBody, decode, decodeViaReflection, decodeStringish, decodeClassName"]}
{"id": "C62", "title": "json.Numbers that are not integers arrive as float64 or as the identical text", "statement": "Marshal of a json.Number whose text is not an integer succeeds, and Unmarshal of the document yields the float64 that strconv.ParseFloat gives for the text, or the identical text as a string if ParseFloat rejects it.", "quantifier": "all texts up to 2^31-1 bytes that are not integers, all encoder settings of versions 1 to 3 without compression, all decoder settings", "why_tests_cant": "the set of texts is unbounded, and the case that goes wrong needs more than 19 digits in front of the point", "anchors": ["Go/sereal/encode.go: encode, encodeJsonNumber", "Go/sereal/decode.go: decode"]}
{"id": "C63", "title": "DecompressDocument does not show in the user header and in typed variables", "statement": "If DecompressDocument succeeds, UnmarshalHeaderBody of its result has the same outcome as of the original document, for every pair of variables for header and body: the same error, or the same effect on memory.", "quantifier": "all documents (hostile ones included) of all versions, all codecs, all targets, all decoder configurations and states, all contents of memory", "why_tests_cant": "all documents times all targets; the difference shows only in offsets that lead to the version-type byte", "anchors": ["Go/sereal/decode.go: DecompressDocument, UnmarshalHeaderBody"]}
{"id": "C64", "title": "Unmarshal does not change unexported fields", "statement": "Whether Unmarshal(b, &x) succeeds or fails, the unexported fields in x are as before, also those that carry a sereal tag. Excluded are types with UnmarshalBinary, and pointers to x in what x leads to.", "quantifier": "all inputs, all struct types, all contents of memory, all decoder configurations", "why_tests_cant": "all documents times all struct types; the violation needs a tracked struct and an ALIAS or REFP to it in the place of another struct of the same type", "anchors": ["Go/sereal/decode.go: decodeViaReflection, decodeHashViaReflection, decodeREFP_ALIAS", "Go/sereal/tagscache.go: Get"]}
{"id": "C65", "title": "Unmarshal into a typed variable does not allocate more than the input warrants", "statement": "After Unmarshal(b, &x), whether it succeeds or fails, no slice in typed variables has more elements, and no string, map key or UnmarshalBinary argument more bytes, than was there before or than the (decompressed) document has bytes; and the number of variables and maps made, and of entries any map has got, is at most (K+2)(m+1)m for m bytes, where K is the greatest number of pointers in one of the types.", "quantifier": "all inputs (hostile ones included), all codecs, all target types and contents of memory, all decoder configurations", "why_tests_cant": "hostile documents times target types; the sizes announced in a document are arbitrary, and COPY can repeat a part of the document anywhere", "anchors": ["Go/sereal/decode.go: decodeArrayViaReflection, decodeHashViaReflection, setBinary, decodeObjectFreezeViaReflection, decodeViaReflection"]}
{"id": "C66", "title": "Which values Marshal writes", "statement": "Marshal succeeds on every value that needs fewer levels of nesting (slices, maps, structs, pointers; Perl objects and weak references do not count, and a pointer met again inside of what it points to ends there) than the recursion limit and contains nothing Marshal has no form for. It returns an error if, without passing a pointer, one comes to a value it has no form for or to one that is a level too many. If it has a form for everything, it succeeds or returns ErrMaxRecursionLimit. Without pointers, it succeeds exactly on the values of the first kind.", "quantifier": "all values (cyclic ones included), all heaps, all limits, all encoder settings without compressor, all map iteration orders, with and without user header", "why_tests_cant": "all shapes of graphs times all limits; cyclic values and pointers met again in every order", "anchors": ["Go/sereal/encode.go: encode, encodeViaReflection, encodeArray, encodeMap, encodeStruct, encodePointer, getPointer"]}
{"id": "C67", "title": "Marshal never crashes the program", "statement": "Marshal and MarshalWithHeader return a document or an error; no runtime error other than the panics they recover from gets out, and no offset in the pointer table is outside the buffer.", "quantifier": "all values and headers, all encoder settings, all compressors that return or panic", "why_tests_cant": "all graphs of values with shared and cyclic pointers, nested to any depth", "anchors": ["Go/sereal/encode.go: MarshalWithHeader, encode, encodePointer"]}
{"id": "C68", "title": "Append and Finish never crash", "statement": "Merger.Append and Merger.Finish return a result or an error; they do not panic.", "quantifier": "all inputs (hostile ones included), all rows of calls, all merger settings, all codecs", "why_tests_cant": "hostile documents times what was appended before; the buffer and its tables carry over from call to call", "anchors": ["Go/sereal/merge.go: Append, buildTrackTable, mergeItems, readString, expectedElements, Finish"]}
{"id": "C69", "title": "What Append adds depends only on the documents", "statement": "What Append returns and what Finish writes is determined by the documents appended; it depends neither on bytes behind the document in memory nor on capacities of buffers.", "quantifier": "all documents, all rows of calls, all contents of memory behind the documents, all capacities", "why_tests_cant": "what lies behind a slice in memory is not visible to a test, and slices of Go tests usually end where their array ends", "anchors": ["Go/sereal/merge.go: Append, mergeItems (slices of the document up to its capacity), Finish"]}
{"id": "C70", "title": "Merged documents can be merged again", "statement": "The document Finish returns can be appended to another Merger; merging documents in several steps gives the same items, in the same order, as merging them at once (with KeepFlat) or nests them accordingly (without).", "quantifier": "all documents, all numbers of steps, all groupings, all merger settings", "why_tests_cant": "unbounded nesting of merges; the merger must accept what it wrote itself (rewritten offsets, padding after the length, back-references to strings of other documents)", "anchors": ["Go/sereal/merge.go: Append, Finish, buildTrackTable, mergeItems, expectedElements"]}
{"id": "C71", "title": "RegisterName decides what frozen objects become", "statement": "RegisterName accepts every value whose type has UnmarshalBinary and panics otherwise, changing nothing. Afterwards an object of the class (FREEZE) that is decoded into an interface becomes a new instance of the type of the last successful RegisterName call for exactly this class, having been handed the object's data; errors of UnmarshalBinary make Unmarshal fail; classes without such a call become PerlFreeze.", "quantifier": "all rows of RegisterName calls (failed ones included), all types, classes and data, all places of objects in documents", "why_tests_cant": "unbounded call histories; depends on properties of the registered type (pointer or not) and on reflection panics that the tests never trigger", "anchors": ["Go/sereal/decode.go: RegisterName, getUnmarshalerType, instantiateZero, findUnmarshaler, decodeObjectFreezeViaReflection"]}
{"id": "C72", "title": "Back-references only where a pointer is met again", "statement": "The document Marshal writes for a value in which no pointer is met twice contains no REFP and no ALIAS items: every pointer is a REFN followed by what it points to.", "quantifier": "all values (any nesting of pointers, slices, maps, structs, Perl values), versions, PerlCompat, map iteration orders, headers", "why_tests_cant": "the encoder remembers addresses of all kinds of things in one table, and a false hit depends on how values lie in memory", "anchors": ["Go/sereal/encode.go: encodePointer, getPointer"]}
{"id": "C73", "title": "Decoded data can be marshalled again", "statement": "What Unmarshal yields for any document, Marshal has a form for (within its recursion limit), and Unmarshal of the new document yields the same data. False for documents with REFP or FREEZE, and with PerlCompat for tracked references to strings; proved for all others.", "quantifier": "all documents Unmarshal accepts (compressed or not), decoder flags, encoder versions and flags, map iteration orders", "why_tests_cant": "decoded values combine every kind of item, copies, aliases and duplicate keys, and every encoder configuration has to take them back", "anchors": ["Go/sereal/decode.go: decode", "Go/sereal/encode.go: encode, encodePointer", "Go/sereal/perl.go: PerlFreeze, PerlObject, PerlRegexp"]}
{"id": "C74", "title": "Marshal has a form for all decoded data", "statement": "Whatever Unmarshal yields contains nothing that Marshal has no form for: Marshal succeeds or returns ErrMaxRecursionLimit, and succeeds with a sufficient limit if the data is finite. That some limit always suffices is false: a document of ten bytes decodes to a slice that is its own element.", "quantifier": "all documents Unmarshal accepts (all kinds of references, cycles, compressed or not), all encoders without compressor, all limits, map iteration orders", "why_tests_cant": "needs every reachable combination of items and references, including cycles that only hostile documents have", "anchors": ["Go/sereal/decode.go: decode, decodeREFP_ALIAS", "Go/sereal/encode.go: encode, encodePointer, remainingRecursion"]}
{"id": "C75", "title": "The fuzz target reports nothing", "statement": "Fuzz (fuzz.go) returns 0 or 1 for every input: documents Unmarshal accepts can be marshalled, unmarshalled again, and the two results are equal. False for frozen objects, NaNs, self-containing arrays and a header length that its check lets pass; proved for all other documents.", "quantifier": "all inputs, map iteration orders and memory addresses", "why_tests_cant": "fuzzing samples inputs; the claim is about all of them", "anchors": ["Go/sereal/fuzz.go: Fuzz", "Go/sereal/decode.go: Unmarshal, readHeader", "Go/sereal/encode.go: Marshal"]}
{"id": "C76", "title": "Marshal does not depend on memory addresses", "statement": "Two values that contain the same data with the same sharing give the same document (or the same error), wherever the garbage-collected memory has placed them: the addresses that the encoder uses to recognise pointers do not show in the result.", "quantifier": "all Encoders, headers, values (cycles, shared pointers, all kinds), all placements in memory that keep different variables apart, all map iteration orders", "why_tests_cant": "placements cannot be chosen from a test", "anchors": ["Go/sereal/encode.go: encodePointer, getPointer, MarshalWithHeader"]}
{"id": "C77", "title": "Deduplication does not make documents longer", "statement": "Without compression, the document that Marshal or MarshalWithHeader writes with deduplication of names is not longer than the one it writes with DisableDedup. False: a reference to an empty key takes three bytes where the key takes two, if the key is at offset 128 or later (one-byte keys: from 16384 on). Proved for documents whose names are long enough to hold an offset into the document.", "quantifier": "all Encoders, headers, values, heaps and map iteration orders", "why_tests_cant": "the difference appears only for short names behind large data; the claim compares two runs on all values", "anchors": ["Go/sereal/encode.go: encodeString, encodeBytes, encodeStruct, varint"]}
{"id": "C78", "title": "Marshal writes one document for the same data, and for nothing else", "statement": "If two values have the same document, they contain the same data: the same nesting, keys, strings, bytes, floats bit for bit, and integers of the same value; whatever the Encoders, headers and memories. Conversely, an Encoder that visits the keys of equal maps in the same order writes the same document for the same data.", "quantifier": "all plain values (C78_tree: all values), Encoders, headers, compressors, memories", "why_tests_cant": "injectivity is about all pairs of values", "anchors": ["Go/sereal/encode.go: MarshalWithHeader, encode, encodeInt, encodeStrMap", "Go/sereal/decode.go: Unmarshal"]}
{"id": "C79", "title": "Documents are not much longer than the data", "statement": "An Encoder without compression writes at most 6 bytes and the size of the value, where strings, names and byte slices count their length and 10, integers 11, floats 5 and 9, slices and maps 11 and their contents, structs 22, objects 11, pointers 9 and what they point at. A user header adds at most 9 bytes and its size.", "quantifier": "all finite values, also with shared pointers, all Encoders without compression, key orders, memories", "why_tests_cant": "the bound is about all values and all key orders", "anchors": ["Go/sereal/encode.go: MarshalWithHeader, encode, encodeString, encodeBytes, encodeStruct, encodePointer"]}
{"id": "C80", "title": "Documents of versions 2, 3 and 4 differ in their first five bytes only", "statement": "If two documents of versions 2 to 4 have the same type and the same bytes behind the fifth, and the type exists in both versions or in neither, Unmarshal into any variable gives the same result or the same error for both, Append adds the same, LooksLikeSereal answers the same, and DecompressDocument fails alike or gives documents that again differ in their first five bytes only. An Encoder for version 2 and one for version 3 (or a new one) with otherwise equal settings write such a pair for the same value, or fail with the same error, unless zlib compression is asked for. Excepted are user headers, in which an offset can name the version byte, and header lengths of 2^63 and more.", "quantifier": "all bytes behind the fifth, all types, pairs of versions, targets, memories, mergers, buffers; all values, headers, compressors but zlib", "why_tests_cant": "tests compare a few documents; the claim is about all bytes", "anchors": ["Go/sereal/decode.go: readHeader, checkHeader, UnmarshalHeaderBody, DecompressDocument", "Go/sereal/encode.go: MarshalWithHeader", "Go/sereal/merge.go: Append"]}
{"id": "C81", "title": "Unmarshal makes values of a few types only", "statement": "Everything that can be reached from what Unmarshal, UnmarshalHeader or UnmarshalHeaderBody store in interface{} variables is nil, a bool, an int, a uint of 2^63 or more, a float32, a float64, a string, a []byte, a []interface{}, a map[string]interface{}, a non-nil pointer, a PerlRegexp, a PerlFreeze or an instance of a type registered for its class. PerlUndef (but the package's own), PerlObject, PerlWeakRef and pointers to interfaces occur with PerlCompat only. There are no narrower integers, no json.Numbers, no structs and no nil pointers.", "quantifier": "all documents, settings, codecs, registered classes; cyclic data included", "why_tests_cant": "tests look at the type of a few results; a type switch in a program relies on the list being complete", "anchors": ["Go/sereal/decode.go: decode, decodeHash, decodeArray, decodeRefpAlias, decodeObjectViaReflection, decodeObjectFreezeViaReflection, UnmarshalHeaderBody", "Go/sereal/perl.go"]}

{
 "claims": [
  {
   "property": "C01",
   "status": "proved",
   "theorems": [
    "Sereal.C01"
   ],
   "note": "Any encoder version and flags, any decoder flags; no compression (see C21)."
  },
  {
   "property": "C02",
   "status": "proved",
   "theorems": [
    "Sereal.C02"
   ],
   "note": "Any encoder version and flags, any decoder flags; no compression (see C21)."
  },
  {
   "property": "C03",
   "status": "proved",
   "theorems": [
    "Sereal.C03"
   ],
   "note": "Any encoder version and flags, any decoder flags; no compression (see C21)."
  },
  {
   "property": "C04",
   "status": "proved",
   "theorems": [
    "Sereal.C04"
   ],
   "note": "Strings up to the decoder's limit of 2^31-1 bytes round-trip; longer ones marshal and are then rejected with an error, both proved."
  },
  {
   "property": "C05",
   "status": "proved",
   "theorems": [
    "Sereal.C05"
   ],
   "note": "Any nesting of slices, maps, strings, byte slices, numbers, booleans and nil (predicate Plain)."
  },
  {
   "property": "C06",
   "status": "proved",
   "theorems": [
    "Sereal.C06",
    "Sereal.C06_copy",
    "Sereal.C06_partial",
    "Sereal.C56"
   ],
   "note": "C06: for all values (shared pointers, cycles) both encoders fail alike or succeed, and the two documents have the same outcome of Unmarshal; the order of map iteration is the same in both calls (C07 is about different orders). C06_copy: the claim about COPY, for all values. With compression: C56. C06_partial: also for documents up to 2^63 bytes, values in which every pointer is met once."
  },
  {
   "property": "C07",
   "status": "partial",
   "theorems": [
    "Sereal.C07_partial",
    "Sereal.C07_fails"
   ],
   "note": "Proved for finite values in which every pointer is met once; C07_fails: with a pointer occurring twice in a map the decoded data depends on the iteration order."
  },
  {
   "property": "C08",
   "status": "partial",
   "theorems": [
    "Sereal.C08_partial",
    "Sereal.C08_noDedup",
    "Sereal.C08_header",
    "Sereal.C08_fails"
   ],
   "note": "Proved (UnmarshalHeaderBody with both variables, any compression, PerlCompat or not) for bodies in which every pointer is met once and headers without pointers (other than nil pointers and pointers to Perl values), when the header bytes are those written with DisableDedup, i.e. no key or class name in the header repeats. C08_header: so does UnmarshalHeader, for all bodies. Without the condition on the header the property is false: C08_fails (COPY offsets in headers are counted from different origins; silent corruption)."
  },
  {
   "property": "C09",
   "status": "proved",
   "theorems": [
    "Sereal.C09",
    "Sereal.C09_bytes",
    "Sereal.C09_partial"
   ],
   "note": "C09: same outcome of Unmarshal for all headers and bodies, compressed or not; documents up to the decoder's limit of 2^31-1 bytes. C09_bytes: the body bytes are the same (version 1: the whole document)."
  },
  {
   "property": "C10",
   "status": "proved",
   "theorems": [
    "Sereal.C10",
    "Sereal.C10_looks"
   ],
   "note": "for documents below 2^63 bytes; LooksLikeSereal itself wants at least 7 bytes, which all uncompressed documents have (C10_looks)"
  },
  {
   "property": "C11",
   "status": "proved",
   "theorems": [
    "Sereal.C11"
   ],
   "note": "acceptance is checkHeader, the first thing UnmarshalHeaderBody runs; every rejection is stated for UnmarshalHeaderBody"
  },
  {
   "property": "C12",
   "status": "proved",
   "theorems": [
    "Sereal.C12"
   ],
   "note": ""
  },
  {
   "property": "C13",
   "status": "partial",
   "theorems": [
    "Sereal.C13_partial",
    "Sereal.C13_fails",
    "Sereal.C13_header_fails",
    "Sereal.C13_body_fails",
    "Sereal.C13_zlib_fails"
   ],
   "note": "the code crashes on absurd header lengths / uncompressed sizes; proved for all documents with sensible length fields"
  },
  {
   "property": "C14",
   "status": "proved",
   "theorems": [
    "Sereal.C14"
   ],
   "note": "steps bounded by (m+4)^3"
  },
  {
   "property": "C15",
   "status": "proved",
   "theorems": [
    "Sereal.C15",
    "Sereal.C15_marshal"
   ],
   "note": "C15: raw documents whose body item ends at the end of the document; every strict prefix is an error. C15_marshal: the same for every uncompressed document that Marshal produces."
  },
  {
   "property": "C16",
   "status": "proved",
   "theorems": [
    "Sereal.C16",
    "Sereal.C16_new"
   ],
   "note": ""
  },
  {
   "property": "C17",
   "status": "partial",
   "theorems": [
    "Sereal.C17_partial",
    "Sereal.C17_core",
    "Sereal.C17_fails"
   ],
   "note": "Proved for the grammar the decoder implements (goDialect), REFP and ALIAS included; the full claim with the specified grammar fails on even ZIGZAG payloads (C17_fails) and varints of 2^64 and more. C17_core is the full claim for documents free of those."
  },
  {
   "property": "C18",
   "status": "partial",
   "theorems": [
    "Sereal.C18_partial",
    "Sereal.C18_go",
    "Sereal.C18_fails",
    "Sereal.C18_zigzag_fails",
    "Sereal.C18_copyKey_fails",
    "Sereal.C18_refpUndef_fails",
    "Sereal.C18_freeze_fails"
   ],
   "note": "Proved for the common part of the specified and the implemented grammar and representable trees; witnesses for each gap."
  },
  {
   "property": "C19",
   "status": "proved",
   "theorems": [
    "Sereal.C19",
    "Sereal.C19_rejected"
   ],
   "note": "C19: exact errors when everything before the offence is well-formed and representable; C19_rejected: not accepted in any case."
  },
  {
   "property": "C20",
   "status": "proved",
   "theorems": [
    "Sereal.C20",
    "Sereal.C20_accepted"
   ],
   "note": "As C19, for REFP and ALIAS."
  },
  {
   "property": "C21",
   "status": "partial",
   "theorems": [
    "Sereal.C21_full_partial",
    "Sereal.C21_partial",
    "Sereal.C21_fails"
   ],
   "note": "C21_full_partial: identical outcome of Unmarshal for all values and all accepted combinations except version 1 with incremental snappy, where C21_fails shows documents that decode to other data. C21_partial: larger bodies in versions 2 and 3."
  },
  {
   "property": "C22",
   "status": "proved",
   "theorems": [
    "Sereal.C22"
   ],
   "note": ""
  },
  {
   "property": "C23",
   "status": "proved",
   "theorems": [
    "Sereal.C23"
   ],
   "note": ""
  },
  {
   "property": "C24",
   "status": "partial",
   "theorems": [
    "Sereal.C24_partial",
    "Sereal.C24_low_partial",
    "Sereal.C24_marshal",
    "Sereal.C24_fails"
   ],
   "note": "Proved for all documents with a header length below 2^63, all codecs, all destination buffers: framing, raw unchanged, idempotent, and (versions 2 to 4) identical Unmarshal results for every decoder configuration. C24_low_partial: also for version 1, if no offset behind the first five bytes of the result leads into them. False for version 1 documents that refer to the version-type byte: C24_fails. C24_marshal: for documents of Marshal, all versions, the result is byte for byte what Marshal writes without compression."
  },
  {
   "property": "C25",
   "status": "partial",
   "theorems": [
    "Sereal.C25_partial",
    "Sereal.C24_marshal",
    "Sereal.C25_fails",
    "Sereal.C25_empty_fails",
    "Sereal.C25_header_fails"
   ],
   "note": "No crash for sensible length fields when the body does not decompress to nothing or the destination is empty. Otherwise it crashes: C25_empty_fails, C25_header_fails. C24_marshal: it succeeds on all documents of Marshal, whatever the destination."
  },
  {
   "property": "C26",
   "status": "proved",
   "theorems": [
    "Sereal.C26"
   ],
   "note": "Go stack exhaustion is outside the model: with the default limit the machine may run out of stack before the limit is reached."
  },
  {
   "property": "C27",
   "status": "proved",
   "theorems": [
    "Sereal.C27"
   ],
   "note": "total bounded by (m+4)^3, single allocations by m"
  },
  {
   "property": "C28",
   "status": "partial",
   "theorems": [
    "Sereal.C28_partial",
    "Sereal.C28_fails",
    "Sereal.C28_typed_partial",
    "Sereal.C28_typed_fails"
   ],
   "note": "false after a panic inside a COPY was recovered; proved for all histories without recovered panics, for untyped and typed targets"
  },
  {
   "property": "C29",
   "status": "proved",
   "theorems": [
    "Sereal.C29"
   ],
   "note": "For every list of earlier calls (successful or not, with any configuration) on one Encoder; the persistent state modelled is the version field and the tag cache. Map iteration order is an argument of each call."
  },
  {
   "property": "C30",
   "status": "partial",
   "theorems": [
    "Sereal.C30_partial",
    "Sereal.C30_fails",
    "Sereal.C30_overlap"
   ],
   "note": "Violated: the reference written for a later occurrence names the REFN item of the first occurrence, one level too high (C30_fails), and pointers to different variables sharing memory are confused (C30_overlap). Proved for every slice value: an element that is a pointer already contained in an earlier element is written as a reference to an item written before for a pointer to the same memory, never written out again. Missing: occurrences behind other pointers."
  },
  {
   "property": "C31",
   "status": "partial",
   "theorems": [
    "Sereal.C31_graph",
    "Sereal.C31_graph_doc",
    "Sereal.C31_graph_stays",
    "Sereal.C31_partial",
    "Sereal.C31_data",
    "Sereal.C31_view",
    "Sereal.C31_fails",
    "Sereal.C31_cycle_cut",
    "Sereal.C31_leaf"
   ],
   "note": "Data part (C31_data, C31_view) for every accepted uncompressed document: REFP to a completed tracked item shows as a pointer to a view of that item's tree (the item itself with DisableReferentialIntegrity). Sharing part (C31_graph) for every accepted document, all nesting depths, cycles and decoder settings: every item has a variable, and REFP and ALIAS items hold what the variable of the named item holds, so slices and maps are shared (relation Laid, Spec/Places.lean). Places change only with COPY items (C31_graph_stays); with COPY items of tracked items the claim is false: C31_fails. C31_partial is the reading of it for the elements of the outermost array, without the relation. C31_leaf: references in the place of typed items to basic values decoded into an interface{}."
  },
  {
   "property": "C32",
   "status": "proved",
   "theorems": [
    "Sereal.C32",
    "Sereal.PerlNest.survives"
   ],
   "note": "All nests of Perl values, leaves, slices and string maps, any encoder version; a Perl value and a pointer to it (outside sharing) are treated alike. Marshal is assumed to succeed (recursion limit: C26) without compression (with compression: C21)."
  },
  {
   "property": "C33",
   "status": "partial",
   "theorems": [
    "Sereal.C33_partial",
    "Sereal.Arrives.frozen_at",
    "Sereal.C33_fails"
   ],
   "note": "Proved for decoders without PerlCompat, at any position of a value in which every pointer is met once, when UnmarshalBinary accepts. False for PerlCompat decoders: C33_fails is the witness."
  },
  {
   "property": "C34",
   "status": "proved",
   "theorems": [
    "Sereal.C34",
    "Sereal.Arrives.jnum_at"
   ],
   "note": "Every decimal integer text; nested positions through Arrives.jnum_at with arrives."
  },
  {
   "property": "C35",
   "status": "partial",
   "theorems": [
    "Sereal.C35_partial",
    "Sereal.C35_values",
    "Sereal.C35_fails",
    "Sereal.C35_fails_marshal",
    "Sereal.C35_fails_dedupe",
    "Sereal.C35_fails_object"
   ],
   "note": "Violated: moving a REFP or ALIAS sets a bit in the wrong byte (C35_fails; C35_fails_marshal for a document Marshal wrote, default options); a REFP to an object makes the result undecodable (C35_fails_object); DedupeStrings merges strings with binary data (C35_fails_dedupe). Proved for every row of Append calls on documents, without DedupeStrings and KeepFlat: if every document denotes a value (Spec/Movable, which names what the merger cannot carry over: REFP and ALIAS, regexps without modifiers, class names by COPY, OBJECTV inside OBJECT) and every Append succeeds, the document of Finish denotes the array of these values, with keys replaced by COPY tags, and decodes to it. Versions 2 and 3, which is what the constructors give. Missing: DedupeStrings, compressed result (see C39), and that Append succeeds (see C53)."
  },
  {
   "property": "C36",
   "status": "partial",
   "theorems": [
    "Sereal.C36_partial",
    "Sereal.C36_fails"
   ],
   "note": "Violated: a document with an empty (or truncated) body is accepted and counted as an element (C36_fails). Proved for every row of calls, failed ones included, without compression, versions 2 and 3 (what the constructors give): the number written by Finish is the sum of the numbers returned by the successful calls. Missing: that so many elements were added, which C35_partial and C40_partial have for sound documents."
  },
  {
   "property": "C37",
   "status": "partial",
   "theorems": [
    "Sereal.C37_partial",
    "Sereal.C37_fails"
   ],
   "note": "Violated: a failed Append leaves keys in the tables with offsets into the part of the buffer it gave up; later documents get COPY tags naming something else (C37_fails). Proved after every row of calls: nothing is left behind if the header, the compression or the first pass fails; Finish directly after the failed Append returns the same bytes up to track bits, and the same bytes if the document has no REFP or ALIAS."
  },
  {
   "property": "C38",
   "status": "proved",
   "theorems": [
    "Sereal.C38",
    "Sereal.C38_after_error"
   ],
   "note": "For every state. C38_after_error: if Finish itself fails, a second Finish returns the unfinished buffer without an error, which the property does not speak about."
  },
  {
   "property": "C39",
   "status": "partial",
   "theorems": [
    "Sereal.C39_partial",
    "Sereal.C39_fails"
   ],
   "note": "Violated if zlib makes the body longer: the result is cut off and followed by memory contents (C39_fails). Proved for every row of calls, failing ones included, every lossless codec, all versions the constructors give, below 2 GB, if zlib has not made the body longer: the compressed and the uncompressed result decode to the same."
  },
  {
   "property": "C40",
   "status": "partial",
   "theorems": [
    "Sereal.C40_partial",
    "Sereal.C40_fails",
    "Sereal.C40_crash"
   ],
   "note": "Violated: an array preceded by padding is added as one element (C40_fails), and a document whose body is one byte crashes (C40_crash). Proved under the conditions of C35_partial for documents without leading padding, of at least two bytes."
  },
  {
   "property": "C41",
   "status": "partial",
   "theorems": [
    "Sereal.C41_partial",
    "Sereal.C41_fails"
   ],
   "note": "Proved whenever Marshal succeeds. False for tagged unexported fields, where Marshal panics and returns an error: C41_fails."
  },
  {
   "property": "C42",
   "status": "proved",
   "theorems": [
    "Sereal.C42",
    "Sereal.C42_unsigned",
    "Sereal.C42_marshal",
    "Sereal.C42_mem",
    "Sereal.C42_unsigned_mem"
   ],
   "note": "For every document whose value is an integer. C42: into a signed kind the integer wrapped to the width is stored, hence the integer itself if it fits. C42_unsigned: likewise for unsigned kinds. C42_marshal: what Marshal makes of an integer arrives in a variable of its kind. C42_mem, C42_unsigned_mem: the same in the model with addresses, for a variable in memory."
  },
  {
   "property": "C43",
   "status": "partial",
   "theorems": [
    "Sereal.C43_partial",
    "Sereal.C43_race",
    "Sereal.C43_fails"
   ],
   "note": "Every interleaving of any number of goroutines: each Get returns the field map of its own type (map operations taken as atomic). Race freedom is false: C43_race reaches two concurrent writes to the same map."
  },
  {
   "property": "C44",
   "status": "partial",
   "theorems": [
    "Sereal.C44_partial",
    "Sereal.C44_fails",
    "Sereal.C44_uint_fails"
   ],
   "note": "Proved for kind int and for non-negative numbers. False otherwise: negative named int8..int64 arrive with 2^64 added, named unsigned types cannot be marshalled."
  },
  {
   "property": "C45",
   "status": "partial",
   "theorems": [
    "Sereal.C45_partial",
    "Sereal.C45_fails",
    "Sereal.C45_full_fails",
    "Sereal.C45_actual"
   ],
   "note": "Odd payloads decode as specified; every even payload decodes to a wrong number."
  },
  {
   "property": "C46",
   "status": "partial",
   "theorems": [
    "Sereal.C46_exact_fails",
    "Sereal.C46_exact_partial",
    "Sereal.C46_encode"
   ],
   "note": "ten-byte varints with value >= 2^64 are silently truncated by the code"
  },
  {
   "property": "C47",
   "status": "proved",
   "theorems": [
    "Sereal.C47",
    "Sereal.C47_compressed",
    "Sereal.C47_mem"
   ],
   "note": "Version 2 and 3 when compressed, documents up to 2 GB. The hypotheses on struct types (fields that can be set, keys that lead back to their fields) are part of the property. C47_mem: the same in the model with addresses, for a variable that holds its zero value; nothing else in memory changes."
  },
  {
   "property": "C48",
   "status": "partial",
   "theorems": [
    "Sereal.C48_partial",
    "Sereal.C48_once_partial",
    "Sereal.C48_fails_int",
    "Sereal.C48_fails_slice"
   ],
   "note": "Violated: pointers to integers and other basic types can be marshalled but not unmarshalled (C48_fails_int), and so can pointers to slices (C48_fails_slice). Proved for pointers to structs, maps and types with UnmarshalBinary when the document has no REFP or ALIAS, as is the case when every pointer is met once (C48_once_partial). Pointers to structs that occur twice, and cycles: C55. Missing: repeated pointers to maps and to types with UnmarshalBinary, repeated pointers next to interfaces."
  },
  {
   "property": "C49",
   "status": "partial",
   "theorems": [
    "Sereal.C49_partial",
    "Sereal.C49_mem_partial",
    "Sereal.C49_noMaps",
    "Sereal.C49_fails"
   ],
   "note": "Violated: a 23-byte document makes Unmarshal into a struct with a map of pointers to the struct panic with the runtime error 'assignment to entry in nil map' (C49_fails). Proved in the memory model, for every input, type, memory and variable: that is the only runtime error that can reach the caller (C49_mem_partial), and none does if the types have no maps (C49_noMaps). C49_partial is the same for the model without sharing. Excluded: header lengths and zlib sizes that overflow (see C13). The model replaces some code by an error: references between typed items and compound untyped items, UnmarshalBinary of objects inside interfaces."
  },
  {
   "property": "C50",
   "status": "partial",
   "theorems": [
    "Sereal.C50_partial",
    "Sereal.C50_mem_partial",
    "Sereal.C50_pointer_mem_partial",
    "Sereal.C50_unnamed",
    "Sereal.C50_dash"
   ],
   "note": "For documents without REFP and ALIAS, whose entries go to different fields and fit. C50_mem_partial: the same in the model with addresses, for a variable no part of which is shared. C50_pointer_mem_partial: a variable that is a pointer to a struct keeps the pointer, the struct is updated in place. C50_unnamed: for all documents, REFP, ALIAS and failing ones included, a field that no part of the document names keeps its contents. C50_dash: so does a field tagged \"-\", also for compressed documents. Missing: what REFP and ALIAS put into the fields that are named, several entries for one field."
  },
  {
   "property": "C51",
   "status": "partial",
   "theorems": [
    "Sereal.C51_partial",
    "Sereal.C51_kept",
    "Sereal.C51_fails",
    "Sereal.C51_mem_partial",
    "Sereal.C51_kept_mem",
    "Sereal.C51_mem_fails"
   ],
   "note": "Violated: a slice that is not empty keeps its length, elements that find no room are dropped without an error (C51_fails; C51_kept says what happens in general). Proved for nil and empty slices. The _mem theorems say the same in the model with addresses, for variables no part of which is shared; a slice that is not empty stays the same slice of the same array."
  },
  {
   "property": "C52",
   "status": "partial",
   "theorems": [
    "Sereal.C52_partial",
    "Sereal.C52_fails",
    "Sereal.C52_mem_partial"
   ],
   "note": "Violated: an entry for a key the map already has makes Unmarshal fail if the elements are integers, strings etc. (C52_fails). Proved for keys that are new and different. C52_mem_partial: the same in the model with addresses, for a variable no part of which is shared; a map that is not nil stays the same map."
  },
  {
   "property": "C53",
   "status": "partial",
   "theorems": [
    "Sereal.C53_partial",
    "Sereal.C53_tokens",
    "Sereal.C53_values",
    "Sereal.C53_fails",
    "Sereal.C53_fails_regexp",
    "Sereal.C53_fails_self",
    "Sereal.C53_fails_objectv"
   ],
   "note": "The full statement is false (C53_fails: two structs of one type; C53_fails_regexp, C53_fails_self, C53_fails_objectv). C53_partial proves it for values reachable without what the merger refuses (Smooth: class names only with deduplication off, no empty names, no regexps with empty parts, no pointers whose reference would stand right behind its target; cycles allowed), merger without compression and KeepFlat. C53_tokens is the same for documents given as rows of tokens. C53_values adds that the merged document of plain data decodes to the slice of these data, with no hypothesis that the merge succeeds."
  },
  {
   "property": "C54",
   "status": "proved",
   "theorems": [
    "Sereal.C54"
   ],
   "note": "For any calls of Append, if Finish succeeds with and without the compressor. The encoder compares the length of the body with its threshold (C22), the merger that of the whole document."
  },
  {
   "property": "C55",
   "status": "proved",
   "theorems": [
    "Sereal.C55",
    "Sereal.C55_compressed",
    "Sereal.ring_copied",
    "Sereal.C55_all"
   ],
   "note": "For the memory model of typed decoding, PerlCompat off in the decoder. Hypotheses beyond the statement: the document has at most 2^31-1 bytes, struct fields with tags are exported, widening and narrowing a float32 is the identity except for NaN. C55_compressed: versions 2 and 3 with a compressor. Addresses of a struct and of its first field are different in the model (they are equal in Go, see DESIGN.md)."
  },
  {
   "property": "C56",
   "status": "proved",
   "theorems": [
    "Sereal.C56"
   ],
   "note": "All values, any pair of settings except version 1 with incremental snappy (C21_fails); documents up to the decoder's limit of 2^31-1 bytes."
  },
  {
   "property": "C57",
   "status": "proved",
   "theorems": [
    "Sereal.C57"
   ],
   "note": "Same outcome (error or memory) for any target type and prior memory; excluded is version 1 with incremental snappy, see C21_fails."
  },
  {
   "property": "C58",
   "status": "proved",
   "theorems": [
    "Sereal.C58",
    "Sereal.C58_leads"
   ],
   "note": "For the memory model of typed decoding (Model/TypedMem), success and failure alike. Granularity: whole variables (a pointer to a field or into an array makes the variable around it reachable). Memory is assumed tidy (numbers not in use hold nothing). UnmarshalBinary methods of the user are assumed to change their receiver only."
  },
  {
   "property": "C59",
   "status": "proved",
   "theorems": [
    "Sereal.C59",
    "Sereal.C59_any"
   ],
   "note": "For the model of UnmarshalHeaderBody with every kind of argument (Model/TypedCall). Not covered: nil pointers to a type, and pointers to interface{} variables outside typed memory that hold something else than nil."
  },
  {
   "property": "C60",
   "status": "partial",
   "theorems": [
    "Sereal.C60_partial",
    "Sereal.C60_fails"
   ],
   "note": "False for an empty header whose length zero takes more than one byte (C60_fails): the first byte of the body is taken for the header flags. Proved for all other headers (shorter than 2^62 bytes)."
  },
  {
   "property": "C61",
   "status": "partial",
   "theorems": [
    "Sereal.C61_partial",
    "Sereal.C61_fails"
   ],
   "note": "False if the body has an offset 0, which is the last byte of the header: the decoder takes that byte for a tag (C61_fails). Proved for bodies in which no COPY, OBJECTV or OBJECTV_FREEZE byte precedes a varint for 0, and for all bodies if both headers end in the same byte."
  },
  {
   "property": "C62",
   "status": "partial",
   "theorems": [
    "Sereal.C62_partial",
    "Sereal.C62_fails"
   ],
   "note": "False for texts that begin with the digits of a number of 2^64 or more: strconv.ParseInt reports the overflow before it sees the point, and the number is written as a string (C62_fails). Proved for all other texts, and for all texts that ParseFloat rejects. ParseFloat is a parameter; versions 1 to 3, no compression."
  },
  {
   "property": "C63",
   "status": "partial",
   "theorems": [
    "Sereal.C63_partial",
    "Sereal.C63_fails"
   ],
   "note": "False if an offset in the user header leads to the version-type byte, which DecompressDocument rewrites (C63_fails). Proved for headers without offsets below 5 whose length, if zero, is one byte (no condition if no header variable is given), and, for version 1, results without offsets below 5 behind the first five bytes."
  },
  {
   "property": "C64",
   "status": "partial",
   "theorems": [
    "Sereal.C64_partial",
    "Sereal.C64_fails"
   ],
   "note": "False for structs inside x: ALIAS and REFP assign a tracked struct as a whole, unexported fields included (C64_fails). Proved for the fields of the struct itself, if its type has no UnmarshalBinary and nothing that x leads to points at x."
  },
  {
   "property": "C65",
   "status": "proved",
   "theorems": [
    "Sereal.C65_sizes",
    "Sereal.C65_count"
   ],
   "note": "Model/TypedMem. Sizes (of slices, strings, keys, UnmarshalBinary arguments) and counts (of variables and maps, of entries per map) in typed memory, after success and after failure. What is allocated inside interface{} values is counted by C27 for interface{} targets; here only strings held directly by an interface are."
  },
  {
   "property": "C66",
   "status": "proved",
   "theorems": [
    "Sereal.C66"
   ],
   "note": "All values, pointers and cycles included. thawed values (results of UnmarshalBinary marshalled again) are outside the model and count as values without a form. Sharing can only make Marshal succeed more often than the first part says, which is why the exact statement is for values without pointers."
  },
  {
   "property": "C67",
   "status": "proved",
   "theorems": [
    "Sereal.C67"
   ],
   "note": "The compressors may fail or panic but not crash. Stack overflow and running out of memory are not modelled."
  },
  {
   "property": "C68",
   "status": "partial",
   "theorems": [
    "Sereal.C68_append_partial",
    "Sereal.C68_finish_partial",
    "Sereal.C68_fails",
    "Sereal.C68_fails_short",
    "Sereal.C68_fails_marshal",
    "Sereal.C68_fails_after",
    "Sereal.C68_fails_finish",
    "Sereal.C68_fails_compress"
   ],
   "note": "Violated in several ways (the *_fails theorems, DESIGN.md item 15). Proved, after any row of successful Appends: Append returns if the user header fits, the size zlib announces is at most 2^48, no tag byte at the end lacks what should follow it (Spec/CutShort) and, with KeepFlat, the body has two bytes; Finish returns if there are fewer than 2^35 elements and the compressor returns something that fits into the array."
  },
  {
   "property": "C69",
   "status": "partial",
   "theorems": [
    "Sereal.C69_partial",
    "Sereal.C69_each_partial",
    "Sereal.C69_finish_partial",
    "Sereal.C69_fails"
   ],
   "note": "Violated for documents that are cut off (C69_fails). Proved for bodies that are not CutShort: what the Appends return, the counts and the tables are the same whatever lies behind the documents and whatever the capacities are; the buffer is the same if all succeed. (After a failed Append the bytes of the buffer may differ, see C37.) Finish: if compressing makes nothing longer."
  },
  {
   "property": "C70",
   "status": "partial",
   "theorems": [
    "Sereal.C70_tokens",
    "Sereal.C70_partial",
    "Sereal.C70_steps",
    "Sereal.SmoothData.portableDoc",
    "Sereal.Plain.assembled",
    "Sereal.C70_fails",
    "Sereal.C70_front"
   ],
   "note": "Violated: two objects of one class, merged, give a document that Append refuses (C70_fails). Proved for documents without references and objects (Spec/Portable; those Marshal writes for values without pointers, structs and objects are such, SmoothData.portableDoc), for mergers without compression: every Append succeeds, also with KeepFlat and DedupeStrings, Finish succeeds, and its document is of this kind again (C70_tokens). By induction over any number of steps (Spec: Assembled), without DedupeStrings: counts, items in order, decoders show them (C70_partial); with KeepFlat, merging in groups and then the results gives what merging at once gives (C70_steps). With KeepFlat documents must not begin with a tracked tag: such are refused if they contain a COPY (C70_front)."
  },
  {
   "property": "C71",
   "status": "partial",
   "theorems": [
    "Sereal.C71_partial",
    "Sereal.C71_anywhere_partial",
    "Sereal.C71_registers",
    "Sereal.C71_inForce",
    "Sereal.C71_refused",
    "Sereal.C71_fails",
    "Sereal.C71_fails_addr"
   ],
   "note": "Violated: RegisterName takes values whose type is not a pointer, and from then on every document with an object of the class is refused, because instantiateZero panics (C71_fails). The branch of RegisterName for values whose address has the method always panics (C71_fails_addr). Proved for every row of calls if the type in force is a pointer and accepts the data (C71_partial; C71_anywhere_partial for objects at any place of a value in which every pointer is met once); C71_registers, C71_inForce and C71_refused hold without conditions. UnmarshalBinary is taken as a function of the data."
  },
  {
   "property": "C72",
   "status": "proved",
   "theorems": [
    "Sereal.C72"
   ],
   "note": "Uncompressed documents up to the decoder's limit of 2^31-1 bytes. Unshared says that no pointer is met twice, counting a pointer to a variable and a pointer to the data of that variable (first element, map, bytes of a string) as the same, as the encoder does."
  },
  {
   "property": "C73",
   "status": "partial",
   "theorems": [
    "Sereal.C73_partial",
    "Sereal.C73_doc",
    "Sereal.C73_fails",
    "Sereal.C73_fails_freeze",
    "Sereal.C73_fails_refp"
   ],
   "note": "Violated: with PerlCompat a tracked reference to a string is decoded to an *interface{}, for which Marshal returns an error (C73_fails); a PerlFreeze is written as an ordinary struct and comes back as a map (C73_fails_freeze); what a REFP is decoded to comes back as a value in place of a pointer (C73_fails_refp). Proved for every other document (compressed or not), version, flag and iteration order: Marshal succeeds within the recursion limit and the same data arrives. With PerlCompat in the decoder, only if no pointer is met twice in the decoded data and Marshal has a form for everything inside."
  },
  {
   "property": "C74",
   "status": "partial",
   "theorems": [
    "Sereal.C74_partial",
    "Sereal.C74_finite_partial",
    "Sereal.C74_loop",
    "Sereal.C74_fails"
   ],
   "note": "Violated: a slice that is its own element, which Unmarshal makes from an ALIAS, cannot be marshalled with any limit (C74_loop, C74_fails). Proved for every accepted document when no class is registered: Marshal succeeds or returns ErrMaxRecursionLimit (C74_partial), and succeeds with every sufficient limit if the data is finite (C74_finite_partial). With PerlCompat no *interface{} in the data may lead to a string, for which it is false (C73_fails)."
  },
  {
   "property": "C75",
   "status": "partial",
   "theorems": [
    "Sereal.C75_partial",
    "Sereal.C75_fails",
    "Sereal.C75_fails_crash",
    "Sereal.C75_fails_loop",
    "Sereal.C75_fails_nan"
   ],
   "note": "Violated: a body that begins at offset 0 crashes Unmarshal (C75_fails_crash), NaNs are reported as differences (C75_fails_nan), self-containing arrays cannot be marshalled (C75_fails_loop). Proved for all proper documents that are Storable (C73) and have no NaN: Fuzz returns 1; for all that are compressed, of version 4 or rejected: 0; and in no proper document a runtime error."
  },
  {
   "property": "C76",
   "status": "proved",
   "theorems": [
    "Sereal.C76",
    "Sereal.C76_marshal"
   ],
   "note": "Bisimulation of the two runs: buffers, string tables and counters are equal, pointer tables correspond. The premise is that the correspondence of addresses (variables, maps, slice storage, string bytes) is one to one; without it the bytes differ (Elsewhere.sharing, C30_overlap). Maps are visited in the same order."
  },
  {
   "property": "C77",
   "status": "partial",
   "theorems": [
    "Sereal.C77_partial",
    "Sereal.C77_fails"
   ],
   "note": "False as stated (C77_fails: empty keys behind more than 127 bytes). C77_partial: MarshalWithHeader without compression, if every name written (keys, field names, class names) has room for an offset into the document: n bytes behind the tag for documents of up to 2^(7n) bytes. Dedup.roomy: in documents of up to 16384 bytes every key of one byte or more qualifies."
  },
  {
   "property": "C78",
   "status": "proved",
   "theorems": [
    "Sereal.C78",
    "Sereal.C78_tree",
    "Sereal.C78_same"
   ],
   "note": "C78: plain data, any version, compression (Lossless; not version 1 with incremental Snappy, see C21_fails) and header, up to the decoder's size limits; from the round trip. C78_tree: for all values, uncompressed, there is one document tree both may be written as. C78_same: the converse by running the encoder on both memories; the order of keys must depend on the set of keys only (SameData.sorted is such an order, SameData.order_matters shows that it is needed)."
  },
  {
   "property": "C79",
   "status": "proved",
   "theorems": [
    "Sereal.C79"
   ],
   "note": "For documents shorter than 2^63 bytes, the length of a Go slice. Bulk counts what a pointer leads to each time it occurs. With user header and for all versions. Non-trivial example: a struct with a shared pointer, a map and a user header."
  },
  {
   "property": "C80",
   "status": "proved",
   "theorems": [
    "Sereal.C80_read",
    "Sereal.C80_write",
    "Sereal.C80_header_fails",
    "Sereal.C80_length_fails"
   ],
   "note": "as stated, with its two exceptions; C80_header_fails and C80_length_fails show that the exceptions are needed (an offset in the user header can name the version byte; a header length of 2^64 - 11 makes the body begin at it)"
  },
  {
   "property": "C81",
   "status": "proved",
   "theorems": [
    "Sereal.C81",
    "Sereal.C81_call",
    "Sereal.C81_integers",
    "Sereal.C81_shape",
    "Sereal.C81_shape_raw"
   ],
   "note": "per variable: the list of kinds holds for all variables and maps in memory, also after a failing call and in memory left by earlier calls (C81_call). C81_shape adds, for data without cycles, that the types of perl.go and registered types occur behind pointers of their own"
  }
 ]
}
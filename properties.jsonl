{"id": "C01", "title": "Unsigned write/read round trip", "statement": "After WriteUint(v,n) at any bit offset of a BitWriter, a BitReader positioned at the same bit offset returns v mod 2^n from ReadUint(n), whatever was written before or is written after.", "quantifier": "every v, every width 0..64, every preceding and following bit stream", "why_tests_cant": "2^64 values x 65 widths x every alignment and neighbourhood", "anchors": ["tdcfio/bitwriter.go:WriteUint", "tdcfio/bitreader.go:ReadUint"]}
{"id": "C02", "title": "Signed write/read round trip", "statement": "WriteInt(v,n) followed by ReadInt(n) returns v whenever |v| < 2^(n-1) and 1<=n<=64 (sign bit then magnitude). A value that does not fit is NOT reported: it silently decodes to a different number.", "quantifier": "every v, every width 1..64, every stream context", "why_tests_cant": "unbounded value/width/offset combinations", "anchors": ["tdcfio/bitwriter.go:WriteInt", "tdcfio/bitreader.go:ReadInt"]}
{"id": "C03", "title": "Heterogeneous record round trip", "statement": "Any sequence of typed writes (uint, int, bool, bytes, binary) whose values fit their widths is read back unchanged by the corresponding sequence of typed reads, and leaves exactly the following bits unread.", "quantifier": "every finite sequence of typed fields, every width mix, every trailing stream", "why_tests_cant": "sequences of any length with any alignment interaction", "anchors": ["tdcfio/bitwriter.go", "tdcfio/bitreader.go", "tdcfio/writer.go:Writer", "tdcfio/reader.go:Reader"]}
{"id": "C04", "title": "WriteBytes pads and truncates", "statement": "WriteBytes(v,n) then ReadBytes(n) returns the first n bytes of v, completed with zero bytes when v is shorter.", "quantifier": "every byte slice, every n, every bit offset", "why_tests_cant": "all lengths/offsets", "anchors": ["tdcfio/bitwriter.go:WriteBytes", "tdcfio/bitreader.go:ReadBytes"]}
{"id": "C05", "title": "Binary write/read round trip", "statement": "WriteBinary of a Binary obtained from ReadBinary or NewBinaryFromString, followed by ReadBinary of the same width, yields an identical Binary; WriteBinary refuses a width different from Nbits().", "quantifier": "every bit string of every length at every offset", "why_tests_cant": "all bit strings of all lengths", "anchors": ["tdcfio/bitwriter.go:WriteBinary", "tdcfio/bitreader.go:ReadBinary", "tdcfio/binary.go"]}
{"id": "C06", "title": "Pos() equals the bits consumed", "statement": "After any sequence of successful reads Pos() equals the sum of the widths asked for and equals the number of bits really consumed from the input.", "quantifier": "every history of reads with every width", "why_tests_cant": "every history of reads", "anchors": ["tdcfio/bitreader.go:Pos", "tdcfio/bitreader.go:ReadInt", "tdcfio/bitreader.go:ReadBytes"]}
{"id": "C07", "title": "Reading past the end is an error", "statement": "A read asking for more bits than remain returns an error and never a value.", "quantifier": "every read operation, width and remaining input", "why_tests_cant": "all truncation points", "anchors": ["tdcfio/bitreader.go"]}
{"id": "C08", "title": "A successful read depends only on the bits it consumes", "statement": "If a read succeeds on some input it returns the same value, and consumes the same bits, on every input that begins with those bits.", "quantifier": "every read operation, input and extension of the input", "why_tests_cant": "all inputs and all extensions", "anchors": ["tdcfio/bitreader.go"]}
{"id": "C09", "title": "Peeking is a look-ahead without effect", "statement": "At a byte boundary PeekUint/PeekBytes(skip,n) return exactly what reading would return after skipping skip bytes; no peek changes any later read or Pos(); away from a byte boundary a peek is refused.", "quantifier": "every input, history of reads, skip and width", "why_tests_cant": "all histories and offsets", "anchors": ["tdcfio/bitreader.go:PeekUint", "tdcfio/bitreader.go:PeekBytes", "tdcfio/bitreader.go:peek"]}
{"id": "C10", "title": "Binary accessors agree", "statement": "For a Binary produced by the library String() has exactly Nbits() characters and its i-th character is '1' iff Bit(i); Bit is false at and past the end.", "quantifier": "every Binary, every index", "why_tests_cant": "all lengths and bit patterns", "anchors": ["tdcfio/binary.go:String", "tdcfio/binary.go:Bit", "tdcfio/binary.go:Nbits"]}
{"id": "C11", "title": "Binary text round trip", "statement": "NewBinaryFromString(s) succeeds iff s consists of '0' and '1' only, and then String() returns s; JSON marshal/unmarshal of a Binary is the identity.", "quantifier": "every string", "why_tests_cant": "all strings of all lengths", "anchors": ["tdcfio/binary.go:NewBinaryFromString", "tdcfio/binary.go:String", "tdcfio/binary.go:MarshalJSON", "tdcfio/binary.go:UnmarshalJSON"]}
{"id": "C12", "title": "NewBinary validates the byte count", "statement": "NewBinary(b,n) succeeds iff len(b) = ceil(n/8), and then holds exactly b and n.", "quantifier": "every slice and bit count, negative ones included", "why_tests_cant": "all sizes", "anchors": ["tdcfio/binary.go:NewBinary"]}
{"id": "C13", "title": "NewBinaryFromUint terminates and yields the n low bits", "statement": "NewBinaryFromUint(v,n) returns a Binary of n bits spelling v.", "quantifier": "every v and n", "why_tests_cant": "termination for every argument cannot be tested", "anchors": ["tdcfio/binary.go:NewBinaryFromUint"]}
{"id": "C14", "title": "The flat JSON reader ignores nesting", "statement": "The k-th read of a FlatJsonReader uses the k-th scalar of the document, however the scalars are bracketed.", "quantifier": "every token stream and read sequence", "why_tests_cant": "all documents and histories", "anchors": ["tdcfio/flatjsonreader.go:token"]}
{"id": "C15", "title": "JSON peeks agree with later reads", "statement": "In any interleaving of peeks and reads on a PeekableFlatJsonReader, peeks change no later result and PeekX(skip) shows the token the (skip+1)-th next read will use.", "quantifier": "every document and every interleaving of peeks and reads", "why_tests_cant": "all interleavings", "anchors": ["tdcfio/flatjsonreader.go:peek", "tdcfio/flatjsonreader.go:shift"]}
{"id": "C16", "title": "JSON reads are type checked", "statement": "A JSON read succeeds iff the scalar it consumes has the kind asked for (number, bool, string, 0/1 string); otherwise it returns an error.", "quantifier": "every token and read kind", "why_tests_cant": "all tokens", "anchors": ["tdcfio/flatjsonreader.go"]}
{"id": "C17", "title": "ReadFloat32 works on a peekable JSON reader", "statement": "PeekableFlatJsonReader.ReadFloat32 returns the next number of the document.", "quantifier": "every document and history", "why_tests_cant": "termination over all histories", "anchors": ["tdcfio/flatjsonreader.go:PeekableFlatJsonReader.ReadFloat32"]}
{"id": "C18", "title": "Missing means all ones", "statement": "For widths 2..64 IsMissing(v,n) holds iff v is an unsigned value with all n bits set; it never holds for a one-bit field or for non-uint values; MissingValue(n) succeeds exactly for 1..64.", "quantifier": "every value and width", "why_tests_cant": "2^64 values x all widths", "anchors": ["bufr/field.go:IsMissing", "bufr/field.go:MissingValue"]}
{"id": "C19", "title": "F, X, Y of a descriptor id", "statement": "For x<100, y<1000 the id f*100000+x*1000+y has F=f, X=x, Y=y, so ids read from a template are in bijection with their F,X,Y fields.", "quantifier": "every f, x, y", "why_tests_cant": "all ids", "anchors": ["table/descriptor.go:F", "table/descriptor.go:X", "table/descriptor.go:Y", "deserialize/factory.go:NewTemplateField"]}
{"id": "C20", "title": "Chained tables: first match wins", "statement": "ChainingTableGroup.Lookup(id) returns the descriptor of the first group that knows id (local tables shadow WMO tables) and fails iff no group knows it.", "quantifier": "every list of groups, every id", "why_tests_cant": "all group lists and ids", "anchors": ["table/group.go:ChainingTableGroup.Lookup"]}
{"id": "C21", "title": "A table group routes by F", "statement": "SingleTableGroup.Lookup consults table B for F=0 and table D for F=3, always succeeds for F=1,2, and fails for any other F; the descriptor returned has the id asked for.", "quantifier": "every table pair and id", "why_tests_cant": "all tables and ids", "anchors": ["table/group.go:SingleTableGroup.Lookup", "table/table.go:B.Lookup", "table/table.go:D.Lookup"]}
{"id": "C22", "title": "One table object per path under concurrency", "statement": "However concurrent callers interleave, every successful request for the same table path returns the same table object and the file is successfully loaded at most once.", "quantifier": "every number of threads, every interleaving, every load outcome", "why_tests_cant": "all schedules", "anchors": ["table/manager.go:getTableB", "table/manager.go:getTableD"]}
{"id": "C23", "title": "The table cache never deadlocks and never races", "statement": "In every reachable state of concurrent table requests no two threads hold conflicting locks, the cache is written only under the write lock, and some unfinished thread can always move.", "quantifier": "every schedule", "why_tests_cant": "all schedules", "anchors": ["table/manager.go"]}
{"id": "C24", "title": "Failed loads are not cached", "statement": "A load that failed leaves the cache unchanged, the caller gets the error, and a later request loads again.", "quantifier": "every schedule and load outcome", "why_tests_cant": "all histories", "anchors": ["table/manager.go:getTableB"]}
{"id": "C25", "title": "Missing local tables fall back to WMO", "statement": "AddLocalAndWmoTableGroups with local version <> 0 uses centre/sub-centre tables, else centre/0 tables, else (as documented) only the WMO tables.", "quantifier": "every set of existing tables and every numbering", "why_tests_cant": "all disk contents", "anchors": ["table/group.go:AddLocalAndWmoTableGroups"]}
{"id": "C26", "title": "Table records load faithfully or not at all", "statement": "A table record of the right shape becomes an entry carrying exactly its fields; a record with a wrongly typed field makes the load fail with an error.", "quantifier": "every record", "why_tests_cant": "all records", "anchors": ["table/table.go:recordToBentry", "table/table.go:recordToDentry"]}
{"id": "C27", "title": "Unit classification", "statement": "The unit string decides how a value is decoded: exactly 'CCITT IA5'/'Character' are strings, 'FLAG TABLE' flags, 'CODE TABLE'/'Common CODE TABLE*' codes, everything else numeric.", "quantifier": "every unit string", "why_tests_cant": "all strings", "anchors": ["table/table.go:unitOf"]}
{"id": "C28", "title": "Template expansion is faithful", "statement": "For a well nested template Expand succeeds iff every descriptor involved is known, and flattening the expanded tree gives the template back with every sequence replaced by nothing else than its table D members underneath it.", "quantifier": "every well nested template, every table without cyclic sequences whose sequences are well nested", "why_tests_cant": "all templates and tables", "anchors": ["table/template.go:expand"]}
{"id": "C29", "title": "Walk events are well nested and determine the tree", "statement": "The events of Walk are properly bracketed for every template, and the expanded template can be rebuilt from the events of Walk(nil) alone.", "quantifier": "every expanded template", "why_tests_cant": "all trees", "anchors": ["table/template.go:Walk"]}
{"id": "C30", "title": "Walk repeats blocks as instructed", "statement": "With a factor channel, a delayed replication emits exactly as many blocks as the factor received and a fixed one exactly Y blocks; without it each block is emitted once.", "quantifier": "every tree, every factor sequence", "why_tests_cant": "all trees and factors", "anchors": ["table/template.go:walkReplication", "table/template.go:Node.Walk"]}
{"id": "C31", "title": "Dump never fails", "statement": "Dump of any expanded template terminates without an index panic and indents each line by its nesting depth.", "quantifier": "every expanded template", "why_tests_cant": "all trees", "anchors": ["table/template.go:Dump"]}
{"id": "C32", "title": "Expansion terminates unless table D is cyclic", "statement": "Expand and Parse terminate for every template when no sequence contains itself; a sequence that contains itself makes them run forever.", "quantifier": "every template, every table D", "why_tests_cant": "termination", "anchors": ["table/template.go:expand", "deserialize/parser/parser.go:parseSequenceNode"]}
{"id": "C33", "title": "A replication never reaches past its enclosing scope", "statement": "Expand rejects a replication that covers more descriptors than its enclosing sequence or replication provides.", "quantifier": "every template", "why_tests_cant": "all malformed templates", "anchors": ["table/template.go:expand"]}
{"id": "C34", "title": "Parsing loses nothing", "statement": "When Parse succeeds, reading the tree back in order gives exactly the descriptors of the template: none dropped, invented, duplicated or reordered, and each sequence node carries exactly its table D members.", "quantifier": "every template and table", "why_tests_cant": "all templates", "anchors": ["deserialize/parser/parser.go:Parse", "deserialize/parser/state.go:processThrough"]}
{"id": "C35", "title": "Parsing is a function of template and tables", "statement": "Parse result does not depend on how long it is allowed to run and two parses of one template agree.", "quantifier": "every template, table", "why_tests_cant": "all templates", "anchors": ["deserialize/parser/parser.go:Parse"]}
{"id": "C36", "title": "Unknown input is rejected by the parser", "statement": "A template with an unknown sequence or element, an unimplemented or unrecognised operator, or an illegal operand fails to parse with an error.", "quantifier": "every template containing such a descriptor at top level", "why_tests_cant": "all templates", "anchors": ["deserialize/parser/parser.go:parseOperatorNode", "deserialize/parser/state.go"]}
{"id": "C37", "title": "Replication scope", "statement": "The node of 1XXYYY covers exactly the next XX descriptors, that of 1XX000 the factor and the next XX descriptors.", "quantifier": "every template", "why_tests_cant": "all templates", "anchors": ["deserialize/parser/parser.go:parseFixedReplicationNode", "deserialize/parser/parser.go:parseDelayedReplicationNode", "deserialize/parser/state.go:takeN"]}
{"id": "C38", "title": "Operator context does not leak", "statement": "Parsing 206YYY or 221YYY affects only the descriptors it covers: after any successful parse step the parser's flags are what they were or cleared.", "quantifier": "every template, table, parser state", "why_tests_cant": "all templates", "anchors": ["deserialize/parser/state.go:assembleOpSkipLocalNode", "deserialize/parser/state.go:assembleOpDataNotPresentNode"]}
{"id": "C39", "title": "Data-not-present elements consume no data", "statement": "Elements covered by 221YYY, other than classes 01-09 and 31, are not read from the data section.", "quantifier": "every template with 221YYY", "why_tests_cant": "all templates", "anchors": ["deserialize/parser/state.go:notPresent", "deserialize/payload/desvisitor.go:VisitElementNode"]}
{"id": "C40", "title": "Truncated templates are rejected", "statement": "A template that ends inside the scope of a replication, 204YYY, 206YYY or 221YYY fails to parse.", "quantifier": "every template truncated in such a scope", "why_tests_cant": "all truncation points", "anchors": ["deserialize/parser/state.go:takeN"]}
{"id": "C41", "title": "Assessment operators grab their bitmap and markers", "statement": "222/223/224/225/232-000 produce a node with its bitmap definition, the sandwiched attributes and its class 33 or marker descriptors, in template order and without loss; a template ending right after one is rejected without crashing.", "quantifier": "every template", "why_tests_cant": "all templates", "anchors": ["deserialize/parser/state.go:assembleAssessmentNode", "deserialize/parser/parser.go:parseBitmapNode"]}
{"id": "C42", "title": "Numeric decoding", "statement": "An uncompressed numeric element of n bits decodes to missing iff its bits are all ones (n>1), else to (raw + reference) / 10^scale; codes and flags decode to the raw value.", "quantifier": "every raw value, width, scale, reference", "why_tests_cant": "2^n values", "anchors": ["deserialize/unpack/unpacker.go:unpackNumeric", "deserialize/unpack/uncompress.go:Unpack"]}
{"id": "C43", "title": "Compressed column decoding", "statement": "In a compressed column, subset i's value is the decoding of base+increment_i, missing iff increment_i is all ones; increment width 0 means every subset has the base value; exactly nbits+6+nsubsets*width bits are consumed and nsubsets values produced.", "quantifier": "every column, any number of subsets", "why_tests_cant": "all columns", "anchors": ["deserialize/unpack/compressed.go:unpackOthers"]}
{"id": "C44", "title": "Compressed and uncompressed agree", "statement": "For numeric, code and flag elements, the value a subset gets from a compressed column equals what the uncompressed decoder would give for raw value base+increment.", "quantifier": "every column and subset", "why_tests_cant": "all columns", "anchors": ["deserialize/unpack/compressed.go", "deserialize/unpack/uncompress.go"]}
{"id": "C45", "title": "Compressed strings", "statement": "A compressed string column gives every subset the base string (width 0) or its own string of the given byte length; a non-empty base with a nonzero width is rejected.", "quantifier": "every column", "why_tests_cant": "all columns", "anchors": ["deserialize/unpack/compressed.go:unpackString"]}
{"id": "C46", "title": "Compressed signed columns decode", "statement": "A compressed column of signed values (203YYY definitions) decodes subset i to base+increment_i.", "quantifier": "every column", "why_tests_cant": "all columns", "anchors": ["deserialize/unpack/compressed.go:unpackCode"]}
{"id": "C47", "title": "Compressed skipped local descriptors decode", "statement": "A compressed column of YYY opaque bits (206YYY) decodes to one bit string per subset.", "quantifier": "every column", "why_tests_cant": "termination for all columns", "anchors": ["deserialize/unpack/compressed.go:Unpack", "tdcfio/binary.go:NewBinaryFromUint"]}
{"id": "C48", "title": "Zero-width codes consume nothing", "statement": "A code or flag element of width 0 decodes to 0 for every subset and consumes no bits.", "quantifier": "every reader state and subset count", "why_tests_cant": "all states", "anchors": ["deserialize/unpack/compressed.go", "deserialize/unpack/uncompress.go"]}
{"id": "C49", "title": "Cell index equals node index", "statement": "In every decoded subset, Cell(i).Node().Index = i.", "quantifier": "every template tree, input and subset", "why_tests_cant": "all payloads", "anchors": ["deserialize/payload/cellsbuilder.go", "bufr/node.go:ValuedNode"]}
{"id": "C50", "title": "Compressed payload shape", "statement": "Decoding compressed binary data yields exactly nsubsets subsets, all with the same cells' nodes in the same order.", "quantifier": "every template tree, input, number of subsets", "why_tests_cant": "all payloads", "anchors": ["deserialize/payload/cellsbuilder.go:CompressedCellsBuilder", "deserialize/factory.go:NewPayloadField"]}
{"id": "C51", "title": "Subsets decode independently", "statement": "Uncompressed subset k is decoded from a fresh state: nsubsets subsets give exactly the concatenation of single subset decodings on the successive parts of the input; operators left open by one subset do not affect the next.", "quantifier": "every template tree, input, nsubsets", "why_tests_cant": "all payloads", "anchors": ["deserialize/payload/desvisitor.go:reset", "deserialize/payload/desvisitor.go:VisitNode", "deserialize/factory.go:NewPayloadField"]}
{"id": "C52", "title": "Subset numbering", "statement": "Subsets of a payload are numbered 0,1,2,... in the order added, whichever way they were added.", "quantifier": "every sequence of Add/AddSubset", "why_tests_cant": "all histories", "anchors": ["bufr/payload.go:Add", "bufr/payload.go:AddSubset"]}
{"id": "C53", "title": "Payload bit accounting", "statement": "The payload field's Nbits equals the bits consumed from the input, which equals the sum over decoded cells of the bits each used.", "quantifier": "every template tree and input", "why_tests_cant": "all payloads", "anchors": ["deserialize/factory.go:NewPayloadField", "deserialize/payload/build.go"]}
{"id": "C54", "title": "Replication means repetition", "statement": "Decoding 1XXYYY gives the same cells and leaves the same decoder state as decoding its block Y times in a row; 1XX000 the same with the decoded factor.", "quantifier": "every block, count, input and decoder state", "why_tests_cant": "all blocks", "anchors": ["deserialize/payload/desvisitor.go:VisitFixedReplicationNode", "deserialize/payload/desvisitor.go:VisitDelayedReplicationNode"]}
{"id": "C55", "title": "Sequences are transparent", "statement": "Decoding a sequence descriptor gives the same cells and leaves the same decoder state as decoding its members in line.", "quantifier": "every sequence, input and decoder state", "why_tests_cant": "all sequences", "anchors": ["deserialize/payload/desvisitor.go:VisitSequenceNode"]}
{"id": "C56", "title": "Packing operators", "statement": "201/202/207/208 change width, scale and reference of exactly the numeric (208: string) elements that follow, until cancelled by operand 0, by the amounts the operators define.", "quantifier": "every operator state and element", "why_tests_cant": "all operator combinations", "anchors": ["deserialize/payload/helpers.go:calcPackingInfo", "deserialize/payload/desvisitor.go"]}
{"id": "C57", "title": "Associated fields", "statement": "While 204YYY is in force every element outside class 31 is preceded by one extra YYY-bit value per open 204, attached to that element.", "quantifier": "every nesting of 204, element, input", "why_tests_cant": "all nestings", "anchors": ["deserialize/payload/build.go:buildAssocNodes", "deserialize/payload/desvisitor.go:VisitElementNode"]}
{"id": "C58", "title": "Bitmap targets", "statement": "The targets of an assessment are exactly the elements, among the last |bitmap| cells before the first assessment, whose bitmap bit is 0, in order; a bitmap longer than the available cells is rejected.", "quantifier": "every bitmap and cell history", "why_tests_cant": "all bitmaps", "anchors": ["deserialize/payload/bitmap.go:InitTargetNodes", "deserialize/payload/bitmap.go:Bits"]}
{"id": "C59", "title": "Bitmap reuse", "statement": "237000 recalls the last 236000 bitmap; 237255 forgets it; 235000 also forgets the back reference, so the next assessment refers to the cells preceding it.", "quantifier": "every sequence of bitmap operations", "why_tests_cant": "all histories", "anchors": ["deserialize/payload/bitmap.go"]}
{"id": "C60", "title": "The hierarchical root reaches every value", "statement": "Every cell's node of a subset is reachable from Subset.Root().", "quantifier": "every decoded subset", "why_tests_cant": "all payloads", "anchors": ["deserialize/payload/treebuilder.go:Push", "bufr/payload.go:Root"]}
{"id": "C61", "title": "Difference statistics are widened", "statement": "A 225255 marker is decoded with one more bit and reference -2^n relative to its target element.", "quantifier": "every target and input", "why_tests_cant": "all targets", "anchors": ["deserialize/payload/desvisitor.go:VisitOpMarkerNode"]}
{"id": "C62", "title": "New reference values are honoured", "statement": "203YYY definitions replace the reference value of the named elements.", "quantifier": "every definition", "why_tests_cant": "all templates", "anchors": ["deserialize/payload/desvisitor.go:VisitOpNewRefvalNode", "deserialize/payload/helpers.go:calcPackingInfo"]}
{"id": "C63", "title": "Ad-hoc bitmaps decode", "statement": "A bitmap given directly after an assessment operator (no 236000) is decoded.", "quantifier": "every ad-hoc bitmap", "why_tests_cant": "all templates", "anchors": ["deserialize/payload/desvisitor.go:VisitBitmapNode"]}
{"id": "C64", "title": "Quality information attaches to its element", "statement": "The k-th quality value is attached to the k-th selected target element.", "quantifier": "every assessment", "why_tests_cant": "all templates", "anchors": ["deserialize/payload/desvisitor.go:VisitOpAssessmentNode"]}
{"id": "C65", "title": "Unequal compressed replication factors are rejected", "statement": "If the subsets of a compressed message disagree on a delayed replication factor, decoding fails with an error.", "quantifier": "every compressed column of factors", "why_tests_cant": "all columns", "anchors": ["deserialize/payload/cellsbuilder.go:LastCellEquality", "deserialize/payload/desvisitor.go:VisitDelayedReplicationNode"]}
{"id": "C66", "title": "Sections end where their length says", "statement": "After Padding(L) succeeds on a section, exactly 8*L bits have been read since the section start; reading beyond is reported as an error.", "quantifier": "every section content and length", "why_tests_cant": "all lengths", "anchors": ["deserialize/factory.go:Padding"]}
{"id": "C67", "title": "Template field", "statement": "NewTemplateField reads floor(remaining/idbits) descriptors whose F,X,Y are the successive bit groups, and leaves fewer than idbits bits of the section.", "quantifier": "every section and length", "why_tests_cant": "all sections", "anchors": ["deserialize/factory.go:NewTemplateField"]}
{"id": "C68", "title": "Start signature search", "statement": "SeekStartSignature stops with the reader at the first occurrence of 'BUFR' at or after the current byte, and fails iff there is none.", "quantifier": "every input", "why_tests_cant": "all inputs", "anchors": ["deserialize/factory.go:SeekStartSignature"]}
{"id": "C69", "title": "End of input is detected", "statement": "CheckEOF returns true iff the input is exhausted.", "quantifier": "every input", "why_tests_cant": "all inputs", "anchors": ["deserialize/factory.go:CheckEOF"]}
{"id": "C70", "title": "Message structure", "statement": "A successfully decoded edition 3 or 4 message has sections 0,1,3,4,5 in order, with section 2 between 1 and 3 iff its flag is set, each with its defined fields in order; other editions are rejected.", "quantifier": "every input", "why_tests_cant": "all inputs", "anchors": ["_definitions/bufr4/bufr4.lua", "_definitions/bufr3/bufr3.lua", "_definitions/common/section0.lua", "api/libdeserializer.go"]}
{"id": "C71", "title": "Corrupt end signature is rejected", "statement": "A message whose last four bytes are not '7777' fails to decode.", "quantifier": "every message", "why_tests_cant": "all inputs", "anchors": ["_definitions/common/section5.lua", "api/libdeserializer.go:newField"]}
{"id": "C72", "title": "Streams of messages", "statement": "Running the decoder repeatedly on a byte stream decodes the messages one after the other, skipping bytes that are not part of a message.", "quantifier": "every concatenation of messages and junk", "why_tests_cant": "all streams", "anchors": ["runtime.go:Run", "api/scriptrt.go:RunDeserializer"]}
{"id": "C73", "title": "Truncated messages are rejected", "statement": "Cutting a message anywhere before the end of its end section makes decoding fail.", "quantifier": "every message, every cut point", "why_tests_cant": "all cut points", "anchors": ["deserialize/factory.go", "tdcfio/bitreader.go:ReadBinary"]}
{"id": "C74", "title": "Proxy fields", "statement": "ProxyField(name) returns the last field registered under name, and an error iff none was.", "quantifier": "every history", "why_tests_cant": "all histories", "anchors": ["bufr/message.go:SetProxyField", "bufr/message.go:ProxyField"]}
{"id": "C75", "title": "Section field lookup", "statement": "FieldByName returns the first field added with that name or nil if none; Fields() lists fields in the order added.", "quantifier": "every history", "why_tests_cant": "all histories", "anchors": ["bufr/section.go:FieldByName", "bufr/section.go:AddField"]}
{"id": "C76", "title": "Cell value conversions", "statement": "UintValue/IntValue/FloatValue/StringValue succeed exactly on the compatible value kinds, agree with each other on integers from 0 to 2^63-1 (above that IntValue wraps), and never succeed on a missing value.", "quantifier": "every cell value", "why_tests_cant": "all values", "anchors": ["bufr/cell.go"]}
{"id": "C77", "title": "Lint accepts exactly the well formed nodes", "statement": "LintVisitor accepts an element node iff its descriptor has F=0, an associated field node iff cancelled or followed by exactly 031021, a new-reference node iff all members are elements, and a replication node iff it has as many members as its descriptor replicates.", "quantifier": "every node", "why_tests_cant": "all nodes", "anchors": ["deserialize/ast/lint.go"]}
{"id": "C78", "title": "Dumping the parsed template keeps indentation balanced", "statement": "The dump visitor prints one line per node, indented by depth, and returns with the indentation it started with, for every parse tree.", "quantifier": "every parse tree", "why_tests_cant": "all trees", "anchors": ["deserialize/ast/dump.go"]}
{"id": "C79", "title": "Tree building is balanced", "statement": "Every successful or failed subset decoding pops as many parents as it pushed, so producing a subset never fails for an unbalanced stack.", "quantifier": "every parse tree and input", "why_tests_cant": "all trees and inputs", "anchors": ["deserialize/payload/treebuilder.go", "deserialize/payload/build.go:buildBlock"]}
{"id": "C80", "title": "Decoding is prefix stable", "statement": "If a payload decodes successfully, it decodes to the same cells on any input that starts with the bits it consumed.", "quantifier": "every parse tree, input, extension", "why_tests_cant": "all inputs", "anchors": ["deserialize/payload", "tdcfio/bitreader.go"]}
{"id": "C81", "title": "Distinct table numberings never share a path", "statement": "Two table group numberings that differ in any component name different table directories, so the cache and the loader never confuse one table with another.", "quantifier": "every pair of numberings (all integers)", "why_tests_cant": "infinitely many pairs; a collision would need a particular pair of numbers", "anchors": ["table/manager.go:composeTablePath"]}
{"id": "C82", "title": "The structure follows the message's own edition number", "statement": "The edition number that selects the layout of a decoded message is the one the message itself carries in section 0, for every kind of input.", "quantifier": "all inputs (bytes at a byte boundary, flat JSON tokens) that decode", "why_tests_cant": "The number is peeked at an offset before anything is read; that the peeked and the later decoded number agree depends on alignment, signature search and the token layout of arbitrary inputs, of which tests sample a few.", "anchors": ["deserialize/factory.go:PeekEditionNumber", "_definitions/boot.lua", "_definitions/common/section0.lua"]}
{"id": "C83", "title": "A bitmap has one bit per data present indicator", "statement": "The bits of a bitmap are exactly the values of its 031031 elements, also when the bitmap is written as a delayed replication.", "quantifier": "all bitmap definitions (236000 / operator followed by a replication of 031031), all inputs", "why_tests_cant": "Fixed replications and delayed replications take different paths, and an extra bit only shows if the bitmap's first bits or length matter for the target search, so sample messages decode plausibly.", "anchors": ["deserialize/payload/bitmap.go:Bits", "deserialize/payload/desvisitor.go:VisitBitmapNode", "deserialize/payload/desvisitor.go:VisitDelayedReplicationNode"]}
{"id": "C84", "title": "Bit string fields hold their bits", "statement": "Every field that the section scripts declare as binary holds exactly the bits read for it, for every input.", "quantifier": "all binary inputs", "why_tests_cant": "The declared type name is resolved at run time in Lua, where an undefined name silently is nil; with reserved bits that are zero the wrong type prints as a plausible value.", "anchors": ["api/scriptrt.go", "_definitions/common/section3.lua", "_definitions/common/section4.lua", "_definitions/bufr3/section1.lua"]}
{"id": "C85", "title": "Header fields hold the values of their bits", "statement": "Every field of sections 0 to 5 that is a number, a flag, a text or the list of descriptors holds the value of exactly the bits at its place in the input, where the place is the recorded start of its section plus the widths of the fields before it.", "quantifier": "all byte inputs (any bytes before the message, any position) that decode", "why_tests_cant": "Positions are counted separately from the bits consumed; a field read with the right width at the wrong place, or a counter that drifts from the input after an unusual section, gives plausible values for the few sample messages.", "anchors": ["deserialize/factory.go:NewField", "deserialize/factory.go:NewTemplateField", "_definitions/common/section2.lua", "bufr/section.go"]}
{"id": "C86", "title": "The data section is decoded with its own message's header", "statement": "The payload of a decoded message is exactly what decoding its own descriptors, with the tables named by its own section 1, for its own number of subsets and its own compression flag, yields at the fifth byte of its own section 4; and it has as many subsets as section 3 announces.", "quantifier": "all inputs (bytes and flat JSON) that decode, all table sets", "why_tests_cant": "The values pass through proxy fields, Lua numbers and table caches before they are used; a mix-up of two header values, or a value kept from an earlier message, only shows for particular combinations of headers.", "anchors": ["deserialize/factory.go:NewPayloadField", "deserialize/factory.go:InitTableGroup", "_definitions/common/section4.lua", "_definitions/bufr4/bufr4.lua"]}
{"id": "C87", "title": "A message is as long as its lengths say", "statement": "The sections of a decoded message lie end to end with the lengths they announce, the decoder stops right after section 5, and the total length announced in section 0 is the length of the message.", "quantifier": "all byte inputs that decode", "why_tests_cant": "Sample messages have consistent lengths; whether a wrong announced length is noticed, and whether the input really continues where the counter says, depends on arbitrary lengths and payloads.", "anchors": ["deserialize/factory.go:Padding", "_definitions/common/section0.lua", "_definitions/common/section5.lua"]}
{"id": "C88", "title": "What is written is read", "statement": "For every template and all values, the data section written by the rules of the format (each element in its packing under the operators in force, its associated fields first, replications with their factors, bitmaps and the assessments they select, operators 201, 202, 204 to 208, 222 to 225, 232, 235 to 237, compressed or not) is accepted and decoded to exactly the elements, packings and values written, in order, and reading stops right after the last bit; so no two different lists of values have the same bits. Left out, since other properties record that the code reads them otherwise or refuses them: new reference values (203YYY), increments of one bit, signed increments and skipped local descriptors (206YYY) in compressed data. In a bitmap under a delayed replication the factor is the first bit, as the code has it (C83), which makes no difference unless it is zero or there is no element for it. Differences (225) are packed like the other markers, as the code has it (C61).", "quantifier": "all templates, all values, all numbers of subsets, any bits after the data", "why_tests_cant": "A decoder that refuses or misreads some combination of operators, widths and nesting still passes every sample file that does not use the combination; there is no encoder in the project to test against.", "anchors": ["deserialize/factory.go:NewPayloadField", "deserialize/payload/desvisitor.go:VisitElementNode", "deserialize/payload/desvisitor.go:VisitDelayedReplicationNode", "deserialize/payload/desvisitor.go:VisitOpAssessmentNode", "deserialize/unpack/uncompress.go", "deserialize/unpack/compressed.go"]}
{"id": "C89", "title": "Messages composed by the rules of the format are accepted and read back", "statement": "A message of edition 3 or 4 composed by the rules of the format (every field of fixed width written with its number, section lengths that are right, a template of descriptors that the tables know, a data section as in C88, compressed or not) is accepted, wherever it starts in the input and whatever follows it: the decoder stops right after its last byte, reports the sections and fields written with their numbers and the template written, and the payload holds the values written. Bits of fields of the kind 'bits' are left out (C84), and the data section leaves out what C88 leaves out. The total length and the stop signature need not be right.", "quantifier": "all numbers in the fields, all templates and tables, all values, all padding, any bytes before (without the start signature) and after", "why_tests_cant": "Decoding a sample file shows one message is accepted; that no well-formed message is refused or misread is a claim over all headers, templates and payloads, and the project has no encoder to produce them.", "anchors": ["runtime.go:Run", "deserialize/factory.go:NewMessage", "deserialize/factory.go:Padding", "deserialize/factory.go:NewTemplateField", "deserialize/factory.go:NewPayloadField", "_definitions/bufr3/bufr3.lua", "_definitions/bufr4/bufr4.lua"]}
{"id": "C90", "title": "The JSON document of a message shows everything in it", "statement": "The JSON document written for a decoded message is the list of its sections, each the list of its fields, in order: numbers as numbers, text as text, strings of bits as zeros and ones, missing values as null, the template as the list of its descriptors, the payload as the list of its subsets, each the list of its values. Writing fails only for numbers that JSON cannot show, and never panics; no two different messages have the same document.", "quantifier": "all messages, all values", "why_tests_cant": "The recorded outputs cover a few messages; which values are dropped, merged or shown differently depends on the kind and content of every value.", "anchors": ["bufr/message.go:MarshalJSON", "bufr/section.go:MarshalJSON", "bufr/field.go:MarshalJSON", "bufr/payload.go:MarshalJSON", "table/template.go:MarshalJSON"]}
{"id": "C91", "title": "JSON output can be read as JSON input", "statement": "The JSON document of a message decoded from binary input, given to the decoder as flat JSON input, decodes to a message with the same values.", "quantifier": "all messages that decode from binary input", "why_tests_cant": "A round trip of one file shows nothing about values of other kinds, about numbers too large for a float, or about text that is not readable.", "anchors": ["bufr/message.go:MarshalJSON", "tdcfio/flatjsonreader.go", "deserialize/factory.go:NewMessage"]}
{"id": "C92", "title": "Constants print as their names", "statement": "Every constant of the unit, data type, event and operator types prints as its own name in the source; any other number prints as the name of the type with the number in parentheses. Different numbers print differently.", "quantifier": "all integers", "why_tests_cant": "The generated tables index a string by offsets; a table left over from an older list of constants still prints plausible names.", "anchors": ["table/unit_string.go", "deserialize/datatype_string.go", "table/eventcode_string.go", "table/operator_string.go"]}
{"id": "C93", "title": "The text of a descriptor, a template or a node tells what it is", "statement": "An id prints as its six digits. The text of a descriptor determines its id and name, that of a template the list of its descriptors, that of a node its index, descriptor and width; associated fields print differently from the elements they belong to; in the listing of cells the values stand in one column, for nodes whose text is ASCII and has at most 81 characters.", "quantifier": "all descriptors, all templates, all nodes", "why_tests_cant": "Ambiguity concerns pairs of objects; tests compare single texts with recordings.", "anchors": ["table/descriptor.go:String", "table/template.go:String", "bufr/node.go:String", "bufr/cell.go:String"]}
{"id": "C94", "title": "No input crashes the decoder", "statement": "Decoding any binary input returns a message or an error: it does not panic and it ends. In particular decoding the data section of a template without bitmaps, new reference values or unbalanced associated fields cannot crash whatever its bits are; a crash can only come from the end of the input in padding, from a section 3 that claims less than 6 bytes, or from the template. With bitmaps, markers, new reference values and ends of associated fields, data crash the decoder only where there is a value for which the bitmap selects no element, a marker for something that is not in table B, an assessment without a bitmap, a new reference value, or the end of an associated field that was not begun; and there they do.", "quantifier": "all byte streams, all tables, all templates", "why_tests_cant": "A crash needs one input among all; fuzzing finds some, no number of runs excludes the next.", "anchors": ["runtime.go:Run", "deserialize/factory.go:NewTemplateField", "deserialize/factory.go:Padding", "deserialize/factory.go:NewPayloadField", "deserialize/payload/desvisitor.go"]}
{"id": "C95", "title": "Objects held by scripts only grow", "statement": "Whatever a definition script does with the deserializer library and the objects it gets, errors caught with pcall included: a field never changes, a section keeps its fields and a message its sections in the order they were added, every field is in exactly one section and every section in exactly one message, and each proxy field is a field of that name. A field once found by getField is found for ever, and getNumberOfFields never decreases.", "quantifier": "all scripts, all readers, all configurations, all states reached", "why_tests_cant": "Scripts are programs: no set of test scripts covers all sequences of calls, arguments and caught errors.", "anchors": ["api/libdeserializer.go", "api/objmessage.go", "api/objsection.go:getField", "api/objfield.go", "deserialize/factory.go", "bufr/section.go", "bufr/message.go"]}
{"id": "C96", "title": "A new field belongs to the message being built", "statement": "A field created by newField, newTemplateField, newPayloadField or padding becomes part of the factory's current message.", "quantifier": "all scripts and states reached by them", "why_tests_cant": "The shipped scripts never reach the state in which it fails; only some sequence of calls does.", "anchors": ["deserialize/factory.go:NewMessage", "deserialize/factory.go:NewField", "api/libdeserializer.go:newMessage"]}
{"id": "C97", "title": "Messages do not share state", "statement": "Decoding a message with a factory that has decoded others before changes none of the earlier messages, their sections or fields, uses nothing of them (message, template, table group), and returns a new object with the same content, the same errors and the same reader position as a new factory on the same input.", "quantifier": "all inputs, all numbers of messages, all factory states", "why_tests_cant": "Leaks between messages show only for particular pairs of messages decoded in sequence.", "anchors": ["runtime.go:Run", "api/scriptrt.go:RunDeserializer", "deserialize/factory.go", "bufr/message.go"]}
{"id": "C98", "title": "Data written as flat JSON are read as written", "statement": "For every template and all values, the values of the subsets given as JSON input, one scalar for each (numbers as numbers, text as strings, bits as strings of zeros and ones, null for a missing value), in arrays nested in any way, are decoded to exactly the elements, packings and values written, in order, whatever the compression flag; what follows the data is left alone. They are the same subsets as those decoded from the same values in a binary data section, and the JSON document of a payload is such input.", "quantifier": "all templates of the modelled node types, all values, all numbers of subsets, both compression flags, compatible mode or not, any nesting of arrays", "why_tests_cant": "Templates are recursive and the two unpackers are separate code: agreement on some templates and values says little about all of them.", "anchors": ["deserialize/unpack/uncompress.go", "tdcfio/flatjsonreader.go", "deserialize/payload/desvisitor.go", "deserialize/factory.go:NewPayloadField", "bufr/payload.go"]}
{"id": "C99", "title": "Only data written by the rules are decoded", "statement": "If the data of uncompressed subsets are decoded, the bits used up are exactly those of the reported values, written subset by subset by the rules of the template: nothing else is accepted, no bit is skipped, invented or used twice. If compressed data are decoded, the bits used up are exactly those of the columns of the reported values.", "quantifier": "all templates of the modelled node types, all bit strings, all numbers of subsets, compatible mode or not", "why_tests_cant": "That malformed data are not accepted concerns all bit strings, of which tests can try only a few.", "anchors": ["deserialize/payload/desvisitor.go", "deserialize/unpack/uncompress.go", "tdcfio/bitreader.go", "deserialize/factory.go:NewPayloadField", "deserialize/unpack/compressed.go"]}
{"id": "C100", "title": "Only messages composed by the rules are decoded", "statement": "Whenever the decoder succeeds on bytes, the bytes it used are those of a message composed by the rules of the format: behind something without a start signature stand the sections with fields of their widths, lengths that are right, a flag for section 2 that is right, descriptors, and data written by the rules of the template; the decoded message says exactly this, and the input is left right behind it. Together with C89 this says exactly which inputs are decoded to which values.", "quantifier": "all byte inputs, positions, tables and configurations", "why_tests_cant": "Tests show that good messages are read; that nothing else is read, for any of infinitely many byte strings, cannot be tested.", "anchors": ["deserialize/factory.go:Padding", "deserialize/factory.go:NewField", "_definitions/common/section2.lua", "runtime.go:Run", "tdcfio/bitreader.go:ReadBinary"]}
{"id": "C101", "title": "Metadata can be read back", "statement": "Metadata(name) of a message or section returns the value stored last under this name with SetMetadata, and the input path of a new message and the description of a new section from the beginning. A name under which nothing was stored is answered without ending the program.", "quantifier": "every history of SetMetadata calls, every name", "why_tests_cant": "all histories and names", "anchors": ["bufr/message.go:SetMetadata", "bufr/message.go:Metadata", "bufr/section.go:Metadata", "bufr/section.go:NewSection"]}
{"id": "C102", "title": "Subsets and cells by position", "statement": "After any calls of NewPayload, NewSubset, AddSubset, Add and AddCell, Subset(i) of a payload is the subset added as number i and has the index i, Cell(i) of a subset is its cell number i, and both panic exactly if there is no number i.", "quantifier": "every history of calls, every index", "why_tests_cant": "all histories; sharing of objects", "anchors": ["bufr/payload.go:Subset", "bufr/payload.go:AddSubset", "bufr/payload.go:Add", "bufr/payload.go:Cell", "bufr/payload.go:AddCell"]}
{"id": "C103", "title": "Setting up the runtime", "statement": "NewRuntime succeeds exactly if boot.lua of the definitions directory can be read and compiled, and says why if not; every Run then runs this script on the given reader with the tables, input type and flags of the configuration; scripts find the constants for data types, the library factory and the functions of message, section and field objects, and all other globals and types as the standard libraries define them.", "quantifier": "every configuration, file system, Lua compiler, reader and number of runs", "why_tests_cant": "all configurations and file systems", "anchors": ["runtime.go:NewRuntime", "runtime.go:toDeserializeConfig", "api/scriptrt.go:Initialize", "api/scriptrt.go:Load", "api/scriptrt.go:RunDeserializer", "api/scriptrt.go:initConstants"]}
{"id": "C104", "title": "Modules are found in the definitions directory", "statement": "A module that a definition script requires is looked for in the definitions directory first, then where it would be looked for otherwise.", "quantifier": "every definitions path and module name", "why_tests_cant": "all paths", "anchors": ["api/scriptrt.go:initPkgPath"]}
{"id": "C105", "title": "Messages as flat JSON are decoded", "statement": "A message composed by the rules of the format, given as JSON text with the values of its fields one after the other (numbers, true or false, characters, bits as strings of zeros and ones) is decoded to what was put into it, and what follows is left in the input.", "quantifier": "every composed message of edition 3 or 4, template, data, tables and rest of the input", "why_tests_cant": "all messages and data; the violations need two fields to be looked at together", "anchors": ["tdcfio/flatjsonreader.go", "tdcfio/flatjsonreader.go:NewPeekableFlatJsonReader", "deserialize/factory.go:PeekEditionNumber", "deserialize/factory.go:NewField", "api/scriptrt.go:initConstants"]}
{"id": "C106", "title": "One value for each element selected", "statement": "If an assessment has more or fewer values than its bitmap selects elements, decoding ends with an error.", "quantifier": "every template, bitmap and data, with anything correct before and anything after, compressed or not", "why_tests_cant": "the numbers come from the data (bits of the bitmap, replication factors), and the violation needs a bitmap that disagrees with the template", "anchors": ["deserialize/payload/desvisitor.go:VisitOpAssessmentNode", "deserialize/payload/bitmap.go:NextTargetNode", "deserialize/payload/bitmap.go:InitTargetNodes"]}
{"id": "C107", "title": "The messages that come with the program", "statement": "The messages in _testdata are decoded to the values recorded in _regression.", "quantifier": "the messages of the regression script; in Lean five of them, byte for byte, with the table entries they use", "why_tests_cant": "regression.sh needs a command line program that is no longer part of the repository, so nothing runs these messages any more", "anchors": ["regression.sh", "deserialize/payload/desvisitor.go:VisitOpAssessmentNode", "deserialize/payload/bitmap.go:Bits"]}
{"id": "C108", "title": "What scripts read from objects", "statement": "What a definition script reads from an object is what the object holds: field:value() the number, text, truth value or bit string of the field (an error for a template or payload), field:isMissing() whether it is an unsigned number with all bits set, section:getNumberOfFields() the number of fields, section:getField(name) the first field of this name and nil if there is none, message:getProxyField(name) the field stored under the name and an error if there is none. None of these calls changes anything.", "quantifier": "all states of the factory, all objects, all names", "why_tests_cant": "all names and contents; the case of a name that is not there ends in a nil pointer only when the result is used", "anchors": ["api/objfield.go:value", "api/objfield.go:isMissing", "api/objsection.go:getField", "api/objmessage.go", "bufr/section.go:FieldByName"]}
{"id": "C109", "title": "Bitmaps of compressed data", "statement": "If the subsets of compressed data disagree on a bit of a bitmap, decoding fails; if they agree, an assessment refers to the elements that these bits select.", "quantifier": "every template, all compressed data, any number of subsets", "why_tests_cant": "the regression messages have compressed data whose subsets agree; nothing fails when they do not", "anchors": ["deserialize/payload/bitmap.go:Bits", "deserialize/payload/bitmap.go:InitTargetNodes", "deserialize/payload/cellsbuilder.go:Cell"]}
{"id": "C110", "title": "The unit tests", "statement": "Every assertion of the unit tests of the program holds.", "quantifier": "the ten test files; the tables given by the entries the tests use", "why_tests_cant": "they are the tests; here they check that the model behaves as the program is known to", "anchors": ["tdcfio/bitreader_test.go:TestPeekableBitReader", "tdcfio/bitwriter_test.go:TestBitWriter", "table/template_test.go:TestExpandedTemplate_Walk", "deserialize/parser/parser_test.go:TestParser_Parse", "deserialize/ast/lint_test.go"]}
{"id": "C111", "title": "Numbers of 32 bits", "statement": "ReadFloat32 takes the next 32 bits, most significant first, and gives the number they stand for in IEEE 754; with less than 32 bits left it is an error. WriteFloat32 appends the 32 bits of the number rounded to this format. What was written is read again as this rounded number, and bits that were read are written again as they were unless they are a NaN.", "quantifier": "all bit patterns, all numbers, any position and any bits around", "why_tests_cant": "2^32 patterns at any bit offset", "anchors": ["tdcfio/bitreader.go:ReadFloat32", "tdcfio/bitwriter.go:WriteFloat32"]}
{"id": "C112", "title": "The members of the root", "statement": "The members of the root of a decoded subset are, in the order of decoding, one node for each operator and value of the template that is not in a sequence or replication, with the associated fields of an element before it; sequences and replications have none.", "quantifier": "every template, configuration and data section that decodes", "why_tests_cant": "all templates and data", "anchors": ["deserialize/payload/treebuilder.go:Add", "deserialize/payload/treebuilder.go:Push", "deserialize/payload/build.go:buildAssocNodes", "deserialize/payload/desvisitor.go:VisitElementNode", "bufr/payload.go:Root"]}
{"id": "C113", "title": "A walk of the template announces the decoded data", "statement": "For templates of elements, sequences, replications whose factors are elements, and the operators 201, 202, 205, 207 and 208: the syntax tree made by the parser is the expansion of the template, node by node; and when a data section is decoded, ExpandedTemplate.Walk, sent the numbers that the subset has in the cells of its replication factors, ends, receives exactly these numbers, and announces (by element, factor and 205 events) the descriptors of the cells of the subset, one by one and in order. In compressed data one walk announces the cells of all subsets.", "quantifier": "all chains of table groups whose sequences are well nested, all well nested templates of this kind, all inputs (binary, compressed or not, and flat JSON) that are decoded, all subsets", "why_tests_cant": "Expansion, walk, parser and decoder are four programs that interpret the same template; agreement for all templates and all data relates them all, and a test compares them for single templates only (and none does).", "anchors": ["table/template.go:Walk", "table/template.go:expand", "deserialize/parser/parser.go:Parse", "deserialize/payload/desvisitor.go:VisitDelayedReplicationNode"]}
{"id": "C114", "title": "Compressed and uncompressed data sections say the same things", "statement": "If compressed data are decoded, to values each of which can be written in its packing and with the same replication factors and bitmaps in all subsets, then there are uncompressed data of the same template that are decoded to exactly the same subsets: the same elements, packings and values in the same order. Conversely, if uncompressed subsets are decoded, have the same elements and factors, and the format has a column for the values of each element, then there are compressed data that are decoded to exactly the same subsets; there is such a column for all numbers of up to 62 bits, missing or not, and all texts of up to 63 characters. In both cases what follows the data is left alone.", "quantifier": "all templates whose factors and bits of bitmaps are elements of class 31 (with operators 201, 202, 204 to 208, 222 to 225, 232, 235 to 237, sequences, replications and associated fields), all inputs that are decoded, any number of subsets", "why_tests_cant": "A test compares single pairs of messages; that the two decoders, one by rows and one by columns, have the same expressive power and meaning is a statement about all templates and all values.", "anchors": ["deserialize/unpack/uncompress.go:Unpack", "deserialize/unpack/compressed.go:Unpack", "deserialize/payload/cellsbuilder.go:Add", "deserialize/payload/desvisitor.go:VisitDelayedReplicationNode"]}
{"id": "C115", "title": "Only the table entries a template leads to matter", "statement": "What the decoder does with a message, be it the decoded message or the error, depends on no table entries but those of the ids its template leads to: its own, the members of the sequences among them, and 000000, which stands for missing descriptors of a truncated template. In particular messages that are decoded are decoded to the same messages after entries have been added to the tables for ids that no table knew; and so are streams of messages. Entries of local tables for ids that other tables know can change them.", "quantifier": "all tables, all inputs, all templates, binary and flat JSON", "why_tests_cant": "A test has one set of tables; that an update of the tables leaves everything else alone is a statement about all pairs of tables and all messages.", "anchors": ["deserialize/parser/parser.go:Parse", "table/group.go:Lookup", "table/group.go:AddLocalAndWmoTableGroups", "deserialize/factory.go:InitTableGroup", "deserialize/factory.go:NewPayloadField"]}
{"id": "C116", "title": "Decoding ends", "statement": "Whatever the input, decoding ends with a message, an error or a panic, provided that the tables can be read and no sequence of the tables used together contains itself.", "quantifier": "all tables, all inputs, all configurations, binary and flat JSON", "why_tests_cant": "That a program halts on every input is a statement about infinitely many inputs; a test that hangs says nothing about how long one would have to wait.", "anchors": ["runtime.go:Run", "deserialize/factory.go:SeekStartSignature", "deserialize/factory.go:NewPayloadField", "deserialize/parser/parser.go:Parse", "tdcfio/binary.go:NewBinaryFromUint", "deserialize/unpack/compressed.go"]}
{"id": "C117", "title": "A message says the same compressed or not", "statement": "If a compressed message is decoded, then there is an uncompressed message with the same header, flags and template that is decoded to the same subsets, provided that each value can be written in its packing, the subsets agree in their bitmaps and section 4 has room for all of them; and if an uncompressed message is decoded to subsets with the same elements and replication factors, then there is a compressed one, provided that the values of each element fit a column. The lengths in the new message are right, it is read wherever it stands in the input, and what follows it is left alone.", "quantifier": "all messages of editions 3 and 4 that are decoded, all tables, templates as in C100, all values and numbers of subsets, any bytes before and after", "why_tests_cant": "A test compares chosen pairs of files; here a partner in the other form is shown to exist for every message, with its size.", "anchors": ["runtime.go:Run", "deserialize/unpack/compressed.go", "deserialize/unpack/uncompress.go", "deserialize/factory.go:NewPayloadField", "_definitions/common/section3.lua"]}
{"id": "C118", "title": "A message has no more values than bits", "statement": "A message that is decoded has no more values (columns of values, if compressed) than the input has bits, so that what the decoder stores is bounded by what it is given.", "quantifier": "all byte sequences, all tables and configurations for binary input, anything before and after the message", "why_tests_cant": "Sample messages are harmless; the bound must hold for every input, and the way around it is a message no one would send in good faith.", "anchors": ["runtime.go:Run", "deserialize/factory.go:NewPayloadField", "deserialize/payload/desvisitor.go", "deserialize/unpack/uncompress.go"]}
{"id": "C119", "title": "A decoded number is the double nearest its exact value", "statement": "A number of uncompressed or compressed data is decoded to the IEEE double nearest to (raw + reference value) / 10^scale, for scales from -22 to 22 and integers that doubles represent.", "quantifier": "all widths up to 64 bits, raw values, reference values and scales (integers at most 2^53, scales from -22 to 22), all bits before and after", "why_tests_cant": "There are 2^53 integers times 45 scales; the code divides by a power of ten that for negative scales is itself rounded, and whether that shows depends on single bits.", "anchors": ["deserialize/unpack/unpacker.go:unpackNumeric", "deserialize/unpack/uncompress.go", "deserialize/payload/helpers.go"]}
{"id": "C120", "title": "Decoding a number loses nothing", "statement": "From a decoded number the raw integer can be recovered by multiplying by 10^scale and rounding to the nearest integer; in particular different raw values of an element are decoded to different values, and none to that of a missing value.", "quantifier": "all integers up to 2^48, scales from -200 to 200, all widths up to 64 bits (injectivity: up to 47 bits, all codes and flags)", "why_tests_cant": "It is a statement on all pairs of raw values for all scales, in floating point arithmetic with up to three roundings.", "anchors": ["deserialize/unpack/unpacker.go:unpackNumeric", "deserialize/unpack/uncompress.go"]}
{"id": "C121", "title": "Messages decoded to the same values carry the same data", "statement": "Bits that are decoded to the same value (with the same packing) are the same bits; hence two uncompressed messages whose payloads hold the same items carry the same data, bit for bit: decoding loses nothing.", "quantifier": "all pairs of messages, tables, templates without new reference values, values of any width", "why_tests_cant": "It compares all pairs of messages; a test compares a message with what is expected of it and cannot see that another message would have given the same.", "anchors": ["deserialize/unpack/uncompress.go", "deserialize/unpack/unpacker.go:unpackNumeric", "deserialize/payload/desvisitor.go", "runtime.go:Run"]}
{"id": "C122", "title": "Decoded numbers are finite, so that messages can be written as JSON", "statement": "No number of a decoded message is infinite or a NaN; hence every decoded message can be written as a JSON document.", "quantifier": "all messages, tables and templates; all raw values, operators and their operands", "why_tests_cant": "Whether a number overflows depends on the combination of raw value, reference value, scale and the operators in force; tests use the usual combinations.", "anchors": ["deserialize/unpack/unpacker.go:unpackNumeric", "deserialize/payload/desvisitor.go", "bufr/message.go:MarshalJSON", "runtime.go:Run"]}
{"id": "C123", "title": "Without delayed replication and bitmaps every value has its fixed place in the data", "statement": "For a template that the decoder's rules allow (C100) and that has no delayed replication, no new reference values and no bitmaps there is one list of elements and packings such that in every message decoded with it every subset, compressed or not, reports these elements with these packings in this order. Without compression the data have as many bits as subsets times the sum of the widths, and value k of subset j is the one of the bits at j times that sum plus the widths before k. So a value depends on its own bits only: damage to other values, other subsets or other sections that leaves the message readable does not change it. Values are taken to be packed properly (at most 64 bits, texts whole bytes).", "quantifier": "all such templates and tables, all messages, all numbers of subsets, all pairs of messages", "why_tests_cant": "That the place of a value does not depend on any other value is a statement about all pairs of messages with the same template; tests decode single messages.", "anchors": ["deserialize/payload/desvisitor.go", "deserialize/payload/cellsbuilder.go", "deserialize/unpack/uncompress.go", "deserialize/unpack/compressed.go", "runtime.go:Run"]}
{"id": "C124", "title": "The elements of a subset are determined by its replication factors and bitmaps", "statement": "Take a template that the decoder's rules allow (C100) whose replication factors and bitmaps are elements of class 31. If two subsets, of the same message or of two messages decoded with that template, have the same values of class 31 in the same order, they report the same elements with the same packings in the same order, whatever their other values are. In compressed data all subsets report the same elements with the same packings; those values of the first subset count, and an uncompressed subset with these values reports the same. Values are taken to be packed properly.", "quantifier": "all such templates and tables, all pairs of messages, all pairs of subsets, compressed or not", "why_tests_cant": "That no other value influences which elements follow is a statement about all pairs of subsets; tests decode single messages.", "anchors": ["deserialize/payload/desvisitor.go", "deserialize/payload/bitmap.go", "deserialize/payload/cellsbuilder.go", "runtime.go:Run"]}
{"id": "C125", "title": "A message that cannot be decoded does not keep those behind it from being decoded", "statement": "When Run fails on a message and the reader has not got to the next message yet, some later call of Run returns that next message.", "quantifier": "all inputs, all configurations, all ways to fail, all following messages that can be decoded, any number of further calls", "why_tests_cant": "It is about what happens after every possible failure at every possible position, and the ways it is violated need infinitely many calls to see that none succeeds.", "anchors": ["runtime.go:Run", "api/scriptrt.go:RunDeserializer", "deserialize/factory.go:SeekStartSignature", "tdcfio/bitreader.go:PeekBytes", "_definitions/boot.lua"]}
{"id": "C126", "title": "Decoding keeps the order of numbers", "statement": "Of two raw values of the same element with the same packing, the greater one is decoded to the greater double or to the same one, whatever scale, reference value and width are, as long as both doubles are finite. Where the packing loses nothing (C120) it is decoded to the greater one.", "quantifier": "all packings of numeric elements, all pairs of raw values, all widths; all pairs of messages and subsets", "why_tests_cant": "Three roundings come one after the other (conversion, sum, quotient); that none of them ever swaps two numbers is a statement about all pairs of raw values and all packings.", "anchors": ["deserialize/unpack/unpacker.go", "deserialize/unpack/uncompress.go", "runtime.go:Run"]}

# Verification design: gobufrkit

Object of study: the Go and Lua sources in /repo (pinned; read as text, never built or run).

## Layout

* `lean/Verif/Go.lean`, `lean/Verif/Model/*` — the model, one Lean module per Go file or package.
* `lean/Verif/Spec/*` — small specifications that do not mention the model's helpers.
* `lean/Verif/Proofs/*` — helper lemmas.
* `lean/Verif/Props/*` — the property theorems `Cnn_…`, each followed by examples that meet its hypotheses.
* `seeded/LOG.jsonl` — the wrong programs the theorems were tried on.

Naming: `Cnn_…_partial` proves part of a property; `Cnn_…_violates` proves that the code breaks it, on a concrete input;
`def Cnn_statement` is the full statement wherever only a part of it holds.

## Trusted base

* The Lean 4.33.0 kernel. Axioms: at most `propext`, `Classical.choice`, `Quot.sound` (list at the end).
  No `sorry`, no own axioms, no `native_decide`, no `bv_decide`. Concrete witnesses use `decide +kernel`.
* The hand translation from Go to Lean. Every model definition cites the file and lines it models and states its simplifications.
* The contracts of code outside /repo, as written into the model:
  Go runtime (slices with capacity, maps, defer, panics, 64 bit `int`/`uint` that wrap where the code can overflow),
  `sync.RWMutex` (readers or one writer), `go-bitstream` (bits MSB first; a short read is an error),
  `bufio.Reader.Peek` (at most 4096 bytes ahead, no effect), `encoding/json` (token stream, record unmarshalling),
  `go-lua` (numbers exact, undefined globals are nil, a Go error raised in a script comes back as an error;
  a Go panic inside a function called by a script stays a panic in the model: should `ProtectedCall` of go-lua recover from it,
  `Run` returns an error instead, and the results about panics say that the panic occurs, not that it leaves `Run`),
  the file system (a function from paths to contents).
* Floating point: an abstract class `GoFloat` of operations. Theorems that need a law assume it explicitly;
  instances: IEEE doubles (Model/Double, all laws proved, so the theorems that assume them hold of the doubles of Go), an exact toy
  instance used in examples and Lean's `Float` used in the fidelity run.

## What is modelled

| Go / Lua source | Lean module |
|---|---|
| tdcfio/bitreader.go, bitwriter.go (and the go-bitstream contract) | Model/BitReader, BitWriter, BitStream |
| tdcfio/binary.go | Model/Binary |
| float64 and math.Pow10 as used by bufr, deserialize and tdcfio | Model/Float (interface), Model/Double |
| tdcfio/flatjsonreader.go | Model/FlatJson |
| tdcfio/reader.go | Model/Reader |
| table/table.go, descriptor.go, group.go | Model/Table |
| table/manager.go (as a concurrent machine) | Model/Manager |
| table/template.go | Model/Template |
| bufr/*.go | Model/Bufr |
| deserialize/parser/*.go | Model/Parser |
| deserialize/ast/*.go (nodes, lint, dump) | Model/Ast |
| deserialize/unpack/*.go | Model/Unpack |
| deserialize/payload/*.go | Model/Payload |
| deserialize/factory.go, config.go | Model/Factory |
| _definitions/*.lua, api/*.go, runtime.go (as the shipped scripts use them) | Model/Script |
| api/*.go (any script), with the objects scripts share | Model/Api |
| runtime.go, api/scriptrt.go (set-up), package path | Model/Runtime, Path |
| bufr/message.go, section.go (metadata), payload.go (shared subsets) | Model/Objects |
| MarshalJSON methods of bufr/*.go, table/template.go, tdcfio/binary.go | Model/Marshal |
| String methods of table/*.go, bufr/*.go, deserialize/datatype_string.go | Model/Stringer |


Not modelled: debug output to stdout and log messages; error texts beyond their wrapping (an error is a tag and a wrapped error,
because `CheckEOF` compares errors); `Lookup` functions (never set); interface glue without behaviour
(`Accept` of the bufr objects, stack discipline of the Lua API);
the test programs.

## Approach

* Go results are `Outcome` = ok | err | panic | diverge; stateful code is a state and outcome monad that keeps the state after an error.
* The bit source is the list of remaining bits (MSB first) plus the reader's own `pos` counter.
* Recursion that need not terminate in Go takes fuel; running out of fuel is `diverge`; termination theorems quantify over fuel.
* Go pointers to tree nodes are positions in a heap list, so sharing and `AddMember` after attachment behave as in Go.
* Payload decoding (`desvisitor.go` and what it calls) is proved to refine a flat table specification (`Gobufr.Flat`):
  columns of values with descriptor, packing and attributes. The payload properties are stated on this table.
* Message decoding is proved to follow a `Trace`: the sections with their fields, read end to end.
* Bugs in the code are modelled as they are.


## Properties

Per property: status, how it is modelled and proved, theorems, and what is missing or violated.

126 properties: 68 proved, 58 partial (part proved, most of them with a proved violation), 0 without theorems.

* **C01 Unsigned write/read round trip** (proved) — reader and writer over lists of bits; induction on the width. Theorems: `C01_uint_roundtrip`, `C01_number`.
* **C02 Signed write/read round trip** (proved) — same, with sign and magnitude arithmetic; values that do not fit alias as stated. Theorems: `C02_int_roundtrip`, `C02_int_overflow_aliases`, `C02_misfit`.
* **C03 Heterogeneous record round trip** (proved) — induction on a list of typed fields, written and then read back. Theorems: `C03_record_roundtrip`.
* **C04 WriteBytes pads and truncates** (proved) — induction on the number of bytes. Theorems: `C04_bytes_pad_truncate`.
* **C05 Binary write/read round trip** (proved) — bit packing lemma for `Binary`, both directions; widths that do not match are rejected. Theorems: `C05_binary_roundtrip`, `C05_binary_read_write`, `C05_width_mismatch`.
* **C06 Pos() equals the bits consumed** (partial) — inductive invariant over read histories. Theorems: `C06_pos_accounting_partial`, `C06_readInt0_violates`, `C06_readBinary_violates`, `C06_violates`. ReadInt(0) and a truncated ReadBinary break the accounting (C06_readInt0_violates, C06_readBinary_violates); the partial theorem covers every other call.
* **C07 Reading past the end is an error** (partial) — case split per operation on the bits left. Theorems: `C07_truncation_partial`, `C07_readBinary_violates`, `C07_violates`. ReadBinary hides truncation (C07_readBinary_violates); the partial theorem covers the other reads.
* **C08 A successful read depends only on the bits it consumes** (partial) — per operation: appending bits changes neither result nor consumption. Theorems: `C08_prefix_partial`, `C08_violates`. The code violates it for ReadBinary at the end of the input, which returns nil without an error (C08_violates). Proved for every read that returns a genuine value, ReadInt(0) included (C08_prefix_partial).
* **C09 Peeking is a look-ahead without effect** (partial) — peek works on the buffered bytes below the bit reader. Theorems: `C09_peek_no_effect`, `C09_peek_unaligned`, `C09_peekUint_partial`, `C09_peekBytes_partial`, `C09_boundary`, `C09_limit`, `C09_violates`. The code violates it for peeks that reach beyond 4096 bytes, the size of the buffer: they are refused although reading works (C09_limit, C09_violates). Proved for all others (C09_peekUint_partial, C09_peekBytes_partial); that a position divisible by 8 is the beginning of a byte after genuine reads is C09_boundary.
* **C10 Binary accessors agree** (proved) — `Binary` as byte list and bit count, against the bits it stands for. Theorems: `C10_accessors_fromString`, `C10_accessors_read`.
* **C11 Binary text round trip** (proved) — induction on the text; JSON wrapping added. Theorems: `C11_text_roundtrip`, `C11_json_roundtrip`, `C11_unmarshal_ignores_errors`. C11_unmarshal_ignores_errors additionally shows that UnmarshalJSON accepts non-string JSON silently.
* **C12 NewBinary validates the byte count** (proved) — decision logic. Theorems: `C12_newBinary_validates`.
* **C13 NewBinaryFromUint terminates and yields the n low bits** (partial) — fuelled loop: no fuel suffices, for any argument. Theorems: `C13_newBinaryFromUint_diverges`, `C13_violates`, `C13_byte_partial`. Violated for every argument: the call never returns (C13_newBinaryFromUint_diverges, C13_violates). C13_byte_partial says what one loop round extracts.
* **C14 The flat JSON reader ignores nesting** (proved) — token list model; reads see the scalars only. Theorems: `C14_flat_reads`, `C14_nesting_irrelevant`.
* **C15 JSON peeks agree with later reads** (partial) — invariant relating cache and remaining tokens to the scalar list. Theorems: `C15_peeks_harmless_partial`, `C15_history_partial`, `C15_look_back_violates`, `C15_violates`, `C15_look_back_general`, `C15_null_dropped`. Look-ahead past a cached token and cached nulls break the claim (C15_look_back_violates, C15_null_dropped).
* **C16 JSON reads are type checked** (proved) — case analysis on token kinds. Theorems: `C16_typed_reads`, `C16_end`.
* **C17 ReadFloat32 works on a peekable JSON reader** (partial) — the self call modelled with fuel. Theorems: `C17_readFloat32_diverges`, `C17_readFloat32_cached_partial`, `C17_violates`, `C17_fuel_enough`. ReadFloat32 of the peekable JSON reader recurses for ever (C17_readFloat32_diverges); cached tokens are read (partial).
* **C18 Missing means all ones** (proved) — the table of missing values, modelled by its init loop. Theorems: `C18_missing_iff`, `C18_one_bit`, `C18_non_uint`, `C18_missingValue`, `C18_wide_zero`.
* **C19 F, X, Y of a descriptor id** (proved) — arithmetic on ids; F, X, Y determine the id. Theorems: `C19_fxy`, `C19_fxy_determine`, `C19_fxy_inj`.
* **C20 Chained tables: first match wins** (proved) — induction on the chain of groups. Theorems: `C20_first_match`, `C20_fails_iff`, `C20_local_shadows`, `C20_reset`, `C20_reset_add`.
* **C21 A table group routes by F** (proved) — decision logic over the table kinds. Theorems: `C21_total`, `C21_routes`, `C21_lookup_id`, `C21_chain_lookup_id`.
* **C22 One table object per path under concurrency** (proved) — small step machine of threads, lock and cache; invariant over all interleavings. Theorems: `Mgr.C22_one_object`, `Mgr.C22_loaded_once`, `Mgr.C22_answers_are_loads`.
* **C23 The table cache never deadlocks and never races** (proved) — same machine: race freedom, progress, bounded runs. Theorems: `Mgr.C23_no_race`, `Mgr.C23_mutual_exclusion`, `Mgr.C23_no_deadlock`, `Mgr.C23_no_livelock`, `Mgr.C23_bounded`.
* **C24 Failed loads are not cached** (proved) — same machine, with failing loads. Theorems: `Mgr.C24_failed_load`, `Mgr.C24_only_loaded_cached`, `Mgr.C24_loads_again`, `Mgr.C24_requests_answered`, `Mgr.C24_errors_are_failed_loads`.
* **C25 Missing local tables fall back to WMO** (partial) — decision logic over an abstract file system. Theorems: `C25_fallback_partial`, `C25_violates`. Local tables fall back as stated; WMO tables do not (C25_violates).
* **C26 Table records load faithfully or not at all** (proved) — decision logic over JSON records, then induction on the table. Theorems: `C26_bentry`, `C26_bentry_total`, `C26_wrong_type`, `C26_wrong_type_d`, `C26_short_record_panics`, `C26_dentry`, `C26_number`, `C26_id_text`, `C26_load_all_or_nothing`, `C26_load_content`, `C26_load_order`, `C26_table_b`, `C26_table_d`, `C26_path`, `C26_ambiguous_keys`. A wrongly typed field is an error for records of any length (C26_wrong_type, C26_wrong_type_d). A record that is merely too short panics (C26_short_record_panics). C26_number: which texts are read as which numbers.
* **C27 Unit classification** (proved) — decision logic on unit texts. Theorems: `C27_units`.
* **C28 Template expansion is faithful** (proved) — slice-with-capacity model of expand against a relational specification; both directions. Theorems: `C28_expand_iff`, `C28_faithful`, `C28_failure`, `C28_complete`.
* **C29 Walk events are well nested and determine the tree** (proved) — event lists; a rebuild function inverts the walk. Theorems: `C29_bracketed`, `C29_events_determine`, `C29_expanded_sane`.
* **C30 Walk repeats blocks as instructed** (proved) — event lists with a list of factors. Theorems: `C30_walk_iff`, `C30_only_waits`, `C30_block_count`.
* **C31 Dump never fails** (proved) — dump loop over events with a depth invariant. Theorems: `C31_dump`.
* **C32 Expansion terminates unless table D is cyclic** (proved) — rank argument for acyclic tables; no fuel suffices for self reference; for expand and for the parser. Theorems: `C32_parse_terminates`, `C32_parse_diverges`, `C32_expand_terminates`, `C32_expand_diverges`.
* **C33 A replication never reaches past its enclosing scope** (partial) — concrete witness; the end of the walk by induction. Theorems: `C33_scope_violates`, `C33_end_partial`. Bracket scopes of nested sequences are violated (C33_scope_violates); the end of the walk is as stated (C33_end_partial).
* **C34 Parsing loses nothing** (partial) — grammar of parse trees and their spelling; parse succeeds iff the grammar holds. Theorems: `C34_parse_iff`, `C34_root`, `C34_violates`, `C34_only_zeros`, `C34_faithful_partial`, `C34_tables_partial`. Violated by templates that end inside a scope: the tree then spells extra zero descriptors (C34_violates). C34_only_zeros: nothing else is ever added or lost; C34_faithful_partial: exact for trees without padded scopes. C34_parse_iff characterises parsing by a grammar.
* **C35 Parsing is a function of template and tables** (proved) — fuel monotonicity. Theorems: `C35_function`, `C35_unique`.
* **C36 Unknown input is rejected by the parser** (partial) — decision logic plus exclusion of panics by induction. Theorems: `C36_violates`, `C36_rejected`, `C36_no_panic`, `C36_error_partial`. One kind of unknown input is not rejected with an error (C36_violates, a panic in assessment scanning); C36_rejected, C36_no_panic and C36_error_partial cover the rest.
* **C37 Replication scope** (proved) — from the grammar of C34. Theorems: `C37_fixed`, `C37_delayed`, `C37_nodes`.
* **C38 Operator context does not leak** (proved) — state invariant by induction on the parse. Theorems: `C38_flags`, `C38_local_confined`.
* **C39 Data-not-present elements consume no data** (partial) — the parser's flag is constantly false; what the visitor would do with it is separate. Theorems: `C39_never_marked`, `C39_violates`, `C39_marked_partial`. Violated: the parser never marks an element as not present (C39_never_marked), so the elements below 221YYY are read (C39_violates). C39_marked_partial: a marked element would not be read.
* **C40 Truncated templates are rejected** (partial) — `takeN` pads with nil descriptors. Theorems: `C40_violates`, `C40_complete_partial`, `C40_truncated_partial`. Violated: takeN pads the missing descriptors with id 0 (C40_violates). C40_truncated_partial / C40_complete_partial say when truncated input is still rejected.
* **C41 Assessment operators grab their bitmap and markers** (partial) — from the grammar of C34. Theorems: `C41_node`, `C41_parts`, `C41_end_panics`, `C41_end_violates`. Nodes and parts are as stated (C41_node, C41_parts); a template ending inside panics instead of being rejected (C41_end_panics, C41_end_violates).
* **C42 Numeric decoding** (partial) — unpacker run on the bits of one value; abstract float operations. Theorems: `C42_numeric_partial`, `C42_wide_violates`, `C42_wide`, `C42_negative`, `C42_signed`, `C42_string`, `C42_binary`. Proved for widths up to 64 bits; wider elements (201YYY) decode zero as missing (C42_wide_violates). C42_wide: of more than 64 bits all are consumed, only the last 64 count, and the value is missing if and only if these are zero. C42_negative: a negative width (201YYY again) reads nothing, the value is that of zero, and the position goes back.
* **C43 Compressed column decoding** (partial) — induction on the number of subsets. Theorems: `C43_column_partial`, `C43_width1_violates`, `C43_width1`, `C43_width0`, `C43_missing_base`. Proved for increments of 0 and 2..63 bits; one bit increments of all ones are not taken as missing (C43_width1_violates, C43_width1).
* **C44 Compressed and uncompressed agree** (proved) — pointwise comparison of the two unpackers on the same values. Theorems: `C44_agree`, `C44_agree_width1`, `C44_agree_width0`.
* **C45 Compressed strings** (proved) — induction on the number of subsets. Theorems: `C45_same`, `C45_own`, `C45_rejected`.
* **C46 Compressed signed columns decode** (partial) — symbolic execution. Theorems: `C46_signed_panics`, `C46_violates`, `C46_width0_partial`. Violated: any non-missing increment panics (C46_signed_panics, C46_violates); width 0 is proved.
* **C47 Compressed skipped local descriptors decode** (partial) — fuelled loop. Theorems: `C47_diverges`, `C47_diverges_incs`, `C47_violates`. Violated: the decoder does not terminate (C47_diverges, C47_diverges_incs, C47_violates).
* **C48 Zero-width codes consume nothing** (proved) — direct. Theorems: `C48_zero_width`.
* **C49 Cell index equals node index** (proved) — visitor invariant (heap, cells and stacks). Theorems: `C49_cell_index`, `C49_parsed`.
* **C50 Compressed payload shape** (proved) — visitor invariant. Theorems: `C50_shape`.
* **C51 Subsets decode independently** (proved) — visitor reset lemma and the refinement to the flat table. Theorems: `C51_subsets`.
* **C52 Subset numbering** (proved) — induction on the additions. Theorems: `C52_numbering`.
* **C53 Payload bit accounting** (partial) — widths of the columns of the flat table, by induction on the tree. Theorems: `C53_partial`, `C53_violates`, `C53_violates_code`. C53_violates and C53_violates_code refute the full statement: a truncated ReadBinary succeeds with fewer bits, and a signed code of width zero reads one bit. C53_partial covers every decoding without those two cases: the bits consumed are exactly those of the values in the payload.
* **C54 Replication means repetition** (proved) — unfolding in the flat table. Theorems: `C54_fixed`, `C54_delayed`.
* **C55 Sequences are transparent** (proved) — unfolding plus associativity of visiting lists. Theorems: `C55_sequence`, `C55_inline`.
* **C56 Packing operators** (proved) — closed form of the packing of an element from the operators in force. Theorems: `C56_start`, `C56_element`, `C56_set`, `C56_keep`.
* **C57 Associated fields** (proved) — induction on the list of open 204 operators. Theorems: `C57_element`, `C57_open`, `C57_close`, `C57_keep`.
* **C58 Bitmap targets** (proved) — induction on the bits. Theorems: `C58_targets`, `C58_rejected`, `C58_accepted`, `C58_keep`, `C58_assessment`.
* **C59 Bitmap reuse** (proved) — state lemmas on the bitmap list. Theorems: `C59_define`, `C59_recall`, `C59_cancel`, `C59_cancel_backref`, `C59_none`, `C59_keep`.
* **C60 The hierarchical root reaches every value** (partial) — reachability in the heap of nodes. Theorems: `C60_violates`, `C60_top_partial`, `C60_flat_partial`, `C60_inner`, `C60_none`. Violated: the values in sequences and replications are not reached from the root (C60_violates), and without associated fields and assessments none of them ever is (C60_inner, C60_none). Proved for the values outside of them (C60_top_partial, C60_flat_partial).
* **C61 Difference statistics are widened** (partial) — decision logic on the marker and its target. Theorems: `C61_like_target_partial`, `C61_violates`. Violated for difference statistics 225255 (C61_violates: the widening is tested on the target's descriptor). C61_like_target_partial: other markers are packed like their target.
* **C62 New reference values are honoured** (partial) — every definition panics on a nil map. Theorems: `C62_never`, `C62_panics`, `C62_violates`, `C62_cancel_partial`, `C62_use_partial`. Violated: every definition panics (C62_never, C62_panics, C62_violates). Cancelling has no effect, as it should (C62_cancel_partial). Were a definition stored, elements would be read with it (C62_use_partial).
* **C63 Ad-hoc bitmaps decode** (partial) — symbolic execution; no tree with an ad hoc bitmap decodes. Theorems: `C63_adhoc_panics`, `C63_never_decodes`, `C63_violates`, `C63_defined_partial`. Violated for ad-hoc bitmaps (assessments without 236000/237000): C63_adhoc_panics, C63_violates. C63_defined_partial: bitmaps with a defining operator decode.
* **C64 Quality information attaches to its element** (partial) — list lemma on targets and quality columns. Theorems: `C64_attached_partial`, `C64_violates`. The members' columns are attached to the targets in order (C64_attached_partial), but the factor of a delayed replication counts as one of them (C64_violates).
* **C65 Unequal compressed replication factors are rejected** (partial) — comparison of the factor's column. Theorems: `C65_disagree_partial`, `C65_agree`, `C65_text_panics`, `C65_element_partial`, `C65_violates`. The code violates it: if the factor is a text, the program panics, even if the texts are equal (C65_violates, C65_text_panics). Proved for factors that are elements holding numbers (C65_element_partial) or any values but texts (C65_disagree_partial); equal numbers are accepted (C65_agree).
* **C66 Sections end where their length says** (proved) — arithmetic on positions. Theorems: `C66_start`, `C66_ends`, `C66_content`, `C66_beyond`, `C66_truncated_panics`. Both readers: C66_ends, C66_beyond; C66_content says what is consumed from a binary stream. An input ending inside the padding panics instead of returning an error (C66_truncated_panics).
* **C67 Template field** (proved) — induction on the number of descriptors. Theorems: `C67_template`, `C67_components`, `C67_short`, `C67_negative_panics`. Binary reader (C67_template), for all widths up to 64 and descriptors that fit in an int; C67_components recovers F, X, Y for the widths 2, 6, 8.
* **C68 Start signature search** (proved) — induction on the input, against "first occurrence" on bytes. Theorems: `C68_found`, `C68_none`, `C68_iff`, `C68_terminates`. Binary reader at a byte boundary (C68_found, C68_none, C68_iff). C68_terminates holds for every reader.
* **C69 End of input is detected** (partial) — error wrapping modelled explicitly. Theorems: `C69_never`, `C69_violates`, `C69_partial`. Violated: CheckEOF never returns true (C69_never, C69_violates), since the error it compares with io.EOF is wrapped. C69_partial: with input left it returns false and consumes nothing.
* **C70 Message structure** (proved) — symbolic execution of the scripts. Theorems: `C70_structure`, `C70_rejects`. Binary and flat JSON inputs (C70_structure); C70_rejects: an edition number other than 3 and 4 is an error.
* **C71 Corrupt end signature is rejected** (partial) — witness; the signature bytes can be anything. Theorems: `C71_violates`, `C71_any_four_bytes`, `C71_short_partial`. Violated: section 5 takes any four bytes (C71_any_four_bytes, C71_violates), since the assert function of the script is never called. C71_short_partial: an input that ends inside the signature is an error.
* **C72 Streams of messages** (proved) — position independence of decoding (FLocal) composed over a list of messages. Theorems: `C72_next`, `C72_stream`, `C72_end`. Any list of messages, each preceded by bytes that do not contain the start signature, decodes message by message; each message is the one decoded alone with its section start indices shifted. C72_end: after the last message the next run reports end of input.
* **C73 Truncated messages are rejected** (proved) — prefix argument from C08/C80. Theorems: `C73_truncated`, `C73_panic`. No input cut strictly inside a message decodes successfully; the failure can be a Go panic instead of an error (C73_panic).
* **C74 Proxy fields** (proved) — induction on the history of fields. Theorems: `C74_proxy_last`.
* **C75 Section field lookup** (proved) — induction on the fields. Theorems: `C75_order`, `C75_first`.
* **C76 Cell value conversions** (proved) — case analysis. Theorems: `C76_success`, `C76_missing`, `C76_agree`, `C76_agree_float`, `C76_wraps`.
* **C77 Lint accepts exactly the well formed nodes** (partial) — case analysis per clause. Theorems: `C77_element`, `C77_assoc`, `C77_refval`, `C77_repl_violates`, `C77_repl_partial`, `C77_unimplemented`. The replication clause is violated: the visitor compares YYY, not XX, with the number of members (C77_repl_violates, C77_repl_partial). The other clauses are proved.
* **C78 Dumping the parsed template keeps indentation balanced** (partial) — structural induction on parse trees. Theorems: `C78_dump`, `C78_parse_trees`, `C78_count_violates`, `C78_count_partial`. Layout and balance proved (C78_dump, C78_parse_trees). The line count fails when a replication factor is itself a compound node (C78_count_violates); proved otherwise.
* **C79 Tree building is balanced** (proved) — visitor invariant on the builder's stack. Theorems: `C79_balanced`, `C79_produce`, `C79_no_stack_error`.
* **C80 Decoding is prefix stable** (partial) — appending bits to the input, by induction on the tree. Theorems: `C80_violates`, `C80_partial`, `C80_parsed_partial`. C80_violates refutes the full statement: a binary value cut by the end of input decodes without error and so depends on what follows. C80_partial: a decoding without cut binary values depends only on the bits it consumed, at any position. C80_parsed_partial states it from the unexpanded template.
* **C81 Distinct table numberings never share a path** (proved) — injectivity of decimal texts and path joining. Theorems: `C81_join`, `C81_joined`, `C81_place`, `C81_canonical`, `C81_clean_clean`, `C81_paths_distinct`.
* **C82 The structure follows the message's own edition number** (partial) — the bits looked at by the boot script against those of section 0. Theorems: `C82_violates`, `C82_binary_partial`. Violated for flat JSON, where the edition number is taken from the wrong token (C82_violates). C82_binary_partial: holds for every binary input at a byte boundary.
* **C83 A bitmap has one bit per data present indicator** (partial) — which columns lie between the bitmap's two indices, from the refinement. Theorems: `C83_fixed_partial`, `C83_delayed`, `C83_violates`, `C83_harmless`. Violated for delayed replications: the factor's cell counts as the first bit (C83_violates; C83_delayed says exactly what the bitmap covers). Proved for fixed replications (C83_fixed_partial).
* **C84 Bit string fields hold their bits** (partial) — trace of the message: each field's value against the bits at its place. Theorems: `C84_violates`, `C84_partial`, `C84_numbers`. Violated: fields declared with the undefined Lua name BIN come out as integers (C84_violates, C84_numbers shows this for every decoded message). Proved for all other bit fields, for messages whose optional section has at least 4 bytes; for the padding of section 4 under GoodPayload (no nil bit string and no zero-width signed code in the payload, see C53).
* **C85 Header fields hold the values of their bits** (partial) — trace of the message: places of all header fields from widths and section lengths. Theorems: `C85_partial`, `C85_violates`. Violated for an optional section that announces less than 4 bytes: the position moves back (C85_violates). Proved for all other messages; for section 5 under GoodPayload (see C53).
* **C86 The data section is decoded with its own message's header** (partial) — trace of the message: configuration and position of the payload decoding. Theorems: `C86_data`, `C86_place_partial`, `C86_violates`. For every kind of input (C86_data). The place is violated if the optional section announces less than 4 bytes (C86_violates); proved for all other byte inputs (C86_place_partial).
* **C87 A message is as long as its lengths say** (partial) — trace of the message: positions of sections. Theorems: `C87_violates`, `C87_sections_partial`. Violated: the total length is never looked at (C87_violates). Proved: sections lie end to end by their own lengths and the decoder stops after section 5.
* **C88 What is written is read** (proved) — induction over the encoding relation: every rule is matched by a run of the visitor. Theorems: `C88_uncompressed`, `C88_compressed`, `C88_unambiguous`, `C88_lenient`. C88_uncompressed, C88_compressed: writing then decoding gives back the values; C88_unambiguous: the bits determine them. The encoder is the inductive relation EncodeSpec.Coded; what it leaves out is listed in the statement.
* **C89 Messages composed by the rules of the format are accepted and read back** (proved) — a trace of the decoder is built from the draft, section by section; C88 gives the data section. Theorems: `C89_uncompressed`, `C89_compressed`, `C89_lenient`. C89_uncompressed, C89_compressed: composing a message (Spec.Draft) and running the decoder gives back its fields, its template and its values, and leaves the input right behind the message. Fields of kind bits are left out because of C84; the data section is that of C88.
* **C90 The JSON document of a message shows everything in it** (partial) — induction over the message; base64 is specified by groups of six bits. Theorems: `C90_never`, `C90_violates`, `C90_empty_violates`, `C90_partial`, `C90_exists`, `C90_lossless`, `C90_characters`, `C90_cells`. Violated by every message decoded from binary input: text is written in base64 (C90_never, C90_violates), and a payload without subsets as null (C90_empty_violates). Proved: with base64 for text the document shows everything in order (C90_partial), it exists iff all numbers are finite and writing never panics (C90_exists), and it determines all values (C90_lossless). A value that is a string of characters is shown with U+FFFD for every byte that belongs to no character (C90_characters).
* **C91 JSON output can be read as JSON input** (partial) — the first two reads of the JSON reader on the document of any decoded message. Theorems: `C91_never`, `C91_violates`, `C91_tokens`, `C91_values_partial`. Violated by every message decoded from binary input: its document is refused as JSON input under every configuration (C91_never, C91_violates). Proved: a reader meets one scalar for each value, in order (C91_tokens), and single numbers up to 2^53, truth values and strings of bits can be read back (C91_values_partial).
* **C92 Constants print as their names** (partial) — the offsets of the generated tables are evaluated; numbers outside print by the decimal notation, which is injective. Theorems: `C92_violates`, `C92_partial`, `C92_distinct`. Violated: four units and one data type print under names of an older list (C92_violates). Proved: events and operators print as their names, units and data types as in that older list (C92_partial), and different numbers differ (C92_distinct).
* **C93 The text of a descriptor, a template or a node tells what it is** (proved) — digits never contain the separators, so each text can be cut in one way only. Theorems: `C93_id`, `C93_descriptor`, `C93_template`, `C93_node`, `C93_associated`, `C93_column`.
* **C94 No input crashes the decoder** (partial) — a triple (precondition, postcondition, crash condition) is carried through the flat decoder, then through the calls of the scripts. For bitmaps, `Blames` says that a crash at a node means that the bits read come to a place where the rules have nothing (`Stuck`, written without the decoder); the converse is an induction over `Stuck`. Theorems: `C94_bitmaps`, `C94_bitmaps_compressed`, `C94_stuck`, `C94_stuck_compressed`, `C94_crashes`, `C94_violates`, `C94_causes_partial`, `C94_payload`. The code violates the property (C94_crashes, C94_violates: four different panics from 40 to 60 byte inputs). Proved: every crash has one of three causes (C94_causes_partial); data of harmless templates never crash (C94_payload); data of templates with bitmaps, markers, new reference values and ends of associated fields crash only at one of five places, which say what the panic is (C94_bitmaps, C94_bitmaps_compressed), and data that come to such a place do crash (C94_stuck, C94_stuck_compressed). Not covered: assessments within bitmaps, and in compressed data signed numbers (C46), skipped bits (C47) and texts as factors (C65).
* **C95 Objects held by scripts only grow** (proved) — a script is a tree of library calls and `pcall`s; every call keeps the invariant (`Keeps`), and so does every tree. Theorems: `C95_script`, `C95_new`, `C95_lookup`, `C95_count`. For every script of the modelled library calls, by induction over the script; the Lua interpreter itself is external.
* **C96 A new field belongs to the message being built** (partial) — the violation by running a script of four calls; the partial by an invariant `Current` kept by every call but `newMessage`. Theorems: `C96_violates`, `C96_stays_partial`, `C96_partial`. The code violates it: NewMessage leaves the current section, and a field created before the next NewSection goes to the old message (C96_violates). Proved: it holds from the first section of a message on until another message is begun (C96_partial, C96_stays_partial).
* **C97 Messages do not share state** (proved) — a simulation relates the memory behind the references to the value of the message, call by call; another relation shows that stale template and tables are overwritten before use. Theorems: `C97_run`, `C97_earlier`, `C97_stream`. Refinement: the model with objects and references agrees with the model with values on which the other properties rest (C97_run), for any past of the factory; earlier messages read the same afterwards (C97_earlier), for any number of messages (C97_stream).
* **C98 Data written as flat JSON are read as written** (partial) — the relation `Coded` of C88, with scalars in place of bits: the proof of C88 is about any kind of symbols and any reader that hands them out; data written with bits can be rewritten with scalars (`Coded.rewrite`). Theorems: `C98_partial`, `C98_agrees`, `C98_document`, `C98_violates`. The code violates it for missing values: the JSON unpacker refuses null (C98_violates), although null is what the JSON output writes for them. Proved without missing values (C98_partial), and that the values of a binary data section given as JSON decode to the same subsets (C98_agrees), in particular the JSON document of a payload without text (C98_document; text is written in base64, see C90).
* **C99 Only data written by the rules are decoded** (partial) — the relation `Coded` of C88 in the other direction: what the abstract visitor of C86 does in a successful run is a derivation of `Coded`, node by node (`Only`). Whether a bitmap can be read is known only when it is used, so the nodes in between are run twice (`chain_only`). The same induction serves compressed data; `Lenient` lists the columns that are accepted beyond the rules. Theorems: `C99_partial`, `C99_exactly`, `C99_violates`, `C99_compressed_partial`, `C99_compressed_exactly`, `C99_compressed_violates`. The code violates it: bits skipped with 206 need not be there (C99_violates), and compressed columns may have increments of one bit, sums that are too large, or no width (C99_compressed_violates). Proved if the reported values are packed properly, for templates whose replication factors and bitmaps are never without a value (C99_partial); with C88 this says exactly which data are decoded to which values (C99_exactly). For compressed data the same is proved with the columns that the code accepts (C99_compressed_partial, C99_compressed_exactly), stated as the relation Lenient. Not proved for bitmaps that contain operators of bitmaps, and for replication factors and bitmaps that may be without a value.
* **C100 Only messages composed by the rules are decoded** (partial) — a draft (C89) is built from the trace of a successful run: each field's number is read off its bits, the lengths follow from where the sections end (C66, C87), the data come from C99. That the message says what is in the draft is C89 applied to the draft: the decoder is a function. Theorems: `C100_uncompressed_partial`, `C100_compressed_partial`, `C100_uncompressed_exactly`, `C100_compressed_exactly`, `C100_violates`. The code violates it: a local section that says it has less than four bytes is accepted (C100_violates). Proved if a local section has four bytes, the template is one of those of C99_partial and the values are packed properly (C100_uncompressed_partial), and for compressed data with the columns that are accepted, C99_compressed_partial, and at least one subset (C100_compressed_partial). With C89 these say exactly which inputs are decoded to which values (C100_uncompressed_exactly, C100_compressed_exactly). The total length and the stop signature are not checked by the code, so `Draft.Sound` does not ask for them (C87_violates).
* **C101 Metadata can be read back** (partial) — the state after a history is a map; what it gives for a name is compared with the last entry of the history. Theorems: `C101_message`, `C101_section_partial`, `C101_section_exits`, `C101_violates`. The code violates it: Section.Metadata ends the program for a name that was not stored (C101_violates, C101_section_exits). Proved for messages (C101_message) and for the names stored in a section (C101_section_partial).
* **C102 Subsets and cells by position** (partial) — payloads and subsets are objects in a memory, as for C95; the memory after a history is compared with what the history says, by induction over the calls. Theorems: `C102_order`, `C102_position`, `C102_cells`, `C102_violates`, `C102_index_partial`, `C102_fresh`. The code violates it: a subset that is added twice has only one index (C102_violates). Proved: order, positions and panics (C102_order, C102_position), cells (C102_cells), and the index if no subset is added twice (C102_index_partial).
* **C103 Setting up the runtime** (proved) — `newRuntime_eq` says what NewRuntime returns for every answer of the file system and the compiler; the run of a runtime is the script run of C95 to C97. Theorems: `C103_place`, `C103_succeeds_iff`, `C103_fails`, `C103_runs`, `C103_shipped`, `C103_unready`, `C103_names`, `C103_types`, `C103_datatypes`. C103_succeeds_iff, C103_fails, C103_runs, C103_names, C103_types, C103_datatypes; with the shipped boot.lua a run is the one of the other properties (C103_shipped). The file system and the Lua compiler are parameters.
* **C104 Modules are found in the definitions directory** (partial) — paths: `place` follows a path from directory to directory; cleaning a path does not change its place, and paths with the same place everywhere are cleaned to the same path. Then the file of a module is looked up through the list of templates. Theorems: `C104_clean`, `C104_place`, `C104_partial`, `C104_keeps`, `C104_violates`. The code violates it: the path of the directory becomes part of a list separated by semicolons, with question marks standing for the name of the module, so a directory with one of them in its path is not searched (C104_violates), although boot.lua is read from it. Proved for all other directories (C104_partial); the search path from before is kept (C104_keeps). How Lua searches (package.path) is taken from its manual.
* **C105 Messages as flat JSON are decoded** (partial) — that a composed message is read is proved once for any way of writing fields, bits and descriptors (`Medium.trace_of_draft`), then used for JSON scalars, where the reader is described by the scalars before it, the position and the number of scalars that were cached (`AtJson`). The other direction goes from the reads of a successful run back to the scalars, section by section (`trace_back`). Theorems: `C105_partial`, `C105_only`, `C105_never`, `C105_violates`. The code violates it: no message of this form is decoded (C105_never, C105_violates), because the type BIN of four fields is not defined and means a number, and because the eighth value, the update sequence number, is taken for the edition number. Proved for messages with these bits as numbers whose update sequence number is the edition number (C105_partial), and that no others are decoded (C105_only).
* **C106 One value for each element selected** (partial) — `Overrun` writes data by the rules of C88 up to a value for which no element is left; `overrun_stops` follows the decoder on the flat table and `root_stops` carries the outcome over to the decoder by the simulation. Theorems: `C106_partial`, `C106_compressed_partial`, `C106_fewer`, `C106_violates`, `C106_violates_more`. The code violates it both ways: with fewer values the data are accepted and the elements selected last get none (C106_fewer, C106_violates), with more values the decoder panics (C106_violates_more). Proved: data with a value or a marker too many, anywhere within sequences, replications and assessments, after any correct subsets and values, are never decoded; they end in the panic (C106_partial, C106_compressed_partial).
* **C107 The messages that come with the program** (partial) — The kernel computes the model on the bytes of the files, with exact decimal numbers in place of floats. Theorems: `C107_partial`, `C107_panics`, `C107_violates`. The code violates it: g2nd_208 makes the decoder panic (C107_panics, C107_violates). Proved: the values of 207003, profiler_european and uegabe are those recorded, and the first subset of contrived (C107_partial). Missing: the other messages are compared outside Lean only (see DESIGN.md).
* **C108 What scripts read from objects** (partial) — the library calls are run on an arbitrary factory state; the search of a name is compared with its first occurrence by induction. Theorems: `C108_value`, `C108_isMissing`, `C108_section_partial`, `C108_absent`, `C108_violates`, `C108_message`. The code violates it: getField of a name that is not there gives a field object that is not nil, and using it panics (C108_absent, C108_violates). Proved: everything else (C108_value, C108_isMissing for fields of at most 64 bits, C108_section_partial, C108_message).
* **C109 Bitmaps of compressed data** (partial) — from C58 and the uniqueness of the bits; the witness has two elements, two subsets and the bits 0 1 and 1 0. Theorems: `C109_partial`, `C109_violates`. The code violates it: only the bits of the first subset are read, so values of other subsets are attached to elements that these subsets did not select (C109_violates). Proved: the selection is that of the first subset, and of every subset if they agree (C109_partial).
* **C110 The unit tests** (proved) — the kernel computes. Theorems: `UnitTests.C110_bits`, `UnitTests.C110_json`, `UnitTests.C110_binary`, `UnitTests.C110_tables`, `UnitTests.C110_expand`, `UnitTests.C110_walk`, `UnitTests.C110_keeper`, `UnitTests.C110_parse`, `UnitTests.C110_lint`. One theorem for each group of tests; the kernel runs the model on the inputs of the tests. TestParser_State, which sets and clears a bit, has no counterpart: the flags are booleans in the model.
* **C111 Numbers of 32 bits** (proved) — the calls reduce to the bit level reads and writes of C01; the parts of the pattern are compared as numbers. Theorems: `C111_read`, `C111_truncated`, `C111_write`, `C111_write_read`, `C111_read_write`. C111_read, C111_truncated, C111_write, C111_write_read, C111_read_write. What the 32 bits mean is left to the operations of GoFloat; that widening and narrowing gives the pattern back is a law of IEEE 754 (LawfulGoFloat).
* **C112 The members of the root** (proved) — `Adds es s s'` says that from one decoder state to the next the root gets exactly the members `es`, if it is the current parent, and none otherwise; it is carried through all visits, with the invariant that nothing that gets members later (cells, targets of bitmaps) is the root. Theorems: `C112_members`, `C112_fixed`. C112_members says it with a relation that follows the number of open associated fields; without associated fields and outside of compatible mode the members are a function of the template alone (C112_fixed). That sequences and replications have no node below the root is a violation of C60.
* **C113 A walk of the template announces the decoded data** (proved) — Expansion and grammar derivation are matched by induction (`expands_derives`), uniqueness of parses (C35) gives the tree. What the decoder accepts is a data section by the rules of C88 over any symbols (`simpleL_only_of` with a wire that says nothing); induction over these rules builds the walk (`coded_walk`). Theorems: `C113_tree`, `C113_walk`, `C113_compressed`. C113_tree: the tree of the parser is the expansion. C113_walk: data that are not compressed, and JSON. C113_compressed: compressed data, with the numbers of the first subset (the factors of the others are equal to them, or the decoder errs). Operators that insert cells a walk cannot know of (203, 204, 206, 221, those of bitmaps) are outside the property.
* **C114 Compressed and uncompressed data sections say the same things** (proved) — What is decoded is written by rules (C99); the derivation of these rules is replayed with the other way of writing values (`Coded.recode`, by induction), item by item; what is so written is decoded to its values (C88). Theorems: `C114_expand`, `C114_compress`, `C114_columns`. C114_expand: from compressed to uncompressed. C114_compress: from uncompressed to compressed. C114_columns: there are columns for numbers and texts. Templates as in C99_partial. The conditions are needed: in compressed data texts may be longer than their element, one bit values may be missing, and only the bitmap of the first subset counts (C99, C109); signed columns with differences and skipped bits cannot be read (C46, C47).
* **C115 Only the table entries a template leads to matter** (proved) — The parser with two groups of tables, call by call, with the set of ids the keepers hold as invariant; then the scripts with two factories that differ in the table group only. Theorems: `C115_template`, `C115_more_template`, `C115_message`, `C115_more`, `C115_stream`, `C115_shadow`. C115_template, C115_more_template: the parser. C115_message: messages, also rejected ones, with tables that agree on the ids the template leads to. C115_more, C115_stream: messages and streams with more entries. C115_shadow: entries for known ids in local tables can change a message, so the condition is needed.
* **C116 Decoding ends** (partial) — `Live m` (the call ends from every state) for every call of the readers, unpackers, factory and scripts; for the visitor with an invariant about the units of the nodes (`Fin`); the parser from C32. That more fuel changes nothing: the two runs are compared call by call (`Steady`). Theorems: `C116_fuel`, `C116_hopeless`, `C116_partial`, `C116_json`, `C116_plain`, `C116_uncompressed`, `C116_ranked`, `C116_violates`. C116_violates: the decoder hangs on a compressed message with an element of unit binary. C116_partial: that is the only way: if decoding does not end then the input is binary, the data are compressed and the parsed template has an element of unit binary or skipped local bits. C116_json, C116_uncompressed, C116_plain: what ends. C116_fuel: more time does not change a result. C116_hopeless: once the template is parsed more time does not help. C116_ranked: a condition on tables for the absence of cycles.
* **C117 A message says the same compressed or not** (proved) — C100 gives the draft of the message, the items are written by the other rules (`Coded.recode`, as for C114, with a count of bits), the draft gets the new data and lengths (`recast`), and C89 reads it. Theorems: `C117_expand`, `C117_compress`, `C117_columns`. C117_expand: from compressed to uncompressed, with the number of bits of the new data. C117_compress: from uncompressed to compressed, for any sizes of the columns. C117_columns: there are columns for numbers and texts, with their sizes. Templates as in C100; a local section must have its four bytes (C100_violates). The conditions are those of C114. Fields of kind bits are left out because of C84; nothing is said about the local bits and about padding.
* **C118 A message has no more values than bits** (partial) — What holds follows from C53 (the payload's bits are those consumed) and a walk along the sections (`Less`); the bomb is a draft (C89) for every k, its tree by C34, its data by `Coded`, both by induction over the replications; the lengths by kernel computation for the 64 values of k. Theorems: `C118_partial`, `C118_bomb`, `C118_violates`. C118_partial: the bits of the values are bits of the input, and if each value takes bits there are no more values than bits; under the conditions of C53 (no value cut off by the end of the input, no negative width, no signed code of width 0). Without the condition it is violated: C118_bomb gives, for every k below 64, a message of 49 + 2 k bytes with no data that is decoded to 255 ^ k values, because 201YYY can take all bits away from a number and replications can be nested; C118_violates.
* **C119 A decoded number is the double nearest its exact value** (partial) — Model/Double.lean is IEEE double arithmetic (rounding to nearest, ties to even) over rationals, with math.Pow10's tables; that it is a `LawfulGoFloat` means that all theorems generic in the floating point type hold of it. Rounding gives a nearest number of the format (Proofs/Double.lean); sums of integers up to 2^53 and powers of ten up to 10^22 are exact, so one rounding is left. Theorems: `C119_partial`, `C119_tens`, `C119_value`, `C119_refval`, `C119_violates`, `C119_message`, `C119_compressed`, `C119_only`, `C119_close`. C119_partial: for scales from 0 to 22 (ties to even); C119_only: the nearest double is unique, so it is the decoded one; C119_tens: for scales from -4 to -1 the number is exact if less than 2^53; C119_close: for scales from -200 to 200 the relative error is at most 2^-50; C119_value: the same for compressed data; C119_refval: reference values multiplied on account of 207YYY are exact; C119_message, C119_compressed: all of this for the numbers of decoded messages. For other negative scales it is violated: 002067 (scale -5) with the raw value 1 is decoded to 99999.99999999999, C119_violates.
* **C120 Decoding a number loses nothing** (proved) — The relative errors of math.Pow10 (at most two roundings) and of the division add up to less than 2^-50, so for integers up to 2^48 the absolute error stays below 1/2. Theorems: `C120_recover`, `C120_injective`. C120_recover: multiplied (exactly) by 10^scale a decoded number is less than 1/2 away from raw + reference value; C120_injective: different raw values give different values, also compared with missing. For whole messages: C119_message, C119_compressed.
* **C121 Messages decoded to the same values carry the same data** (partial) — A draft's data is the concatenation of pieces, one per item, each related to its item by `Single` (`Coded.pieces`), which is functional in the bits for lossless packings (C120); C100 provides the drafts. Theorems: `C121_value`, `C121_partial`, `C121_packing`, `C121_violates`, `C121_signed`. C121_value, C121_partial (messages): for codes, flags, text, opaque bits, and numbers of at most 47 bits with reference values of at most 47 bits and scales from -200 to 200; C121_packing: elements of table B under operators are such, if they stay within the limits. Outside it is violated: numbers of 60 bits have more digits than a double (C121_violates), and codes with a sign have two zeros (C121_signed). Compressed data is left out: the same values may be written with different bases and widths.
* **C122 Decoded numbers are finite, so that messages can be written as JSON** (partial) — Rounding to nearest at most doubles a number (`round_twice`, compare with zero), which bounds product, sum and quotient; powers of ten are right up to a factor of two (`pow10_twice`, by kernel computation). Templates: induction over `Coded` (`coded_modest`). Header fields hold no floats (`trace_tame`), C90 does the rest. Theorems: `C122_element`, `C122_packing`, `C122_partial`, `C122_compressed`, `C122_template`, `C122_template_compressed`, `C122_violates`, `C122_zero`. C122_element: finite for reference values of 64 bits times 10^y, y up to 255, and scales of at least y - 227; C122_packing: elements of table B with scales of at least -100 are such, whatever the operators; C122_partial and C122_compressed: messages with such elements can be written as JSON; C122_template and C122_template_compressed: the same with a condition on the tables and the template only. The tables in the repository have scales from -16 to 19 and reference values of at most 31 bits. Violated for tables with scales of -400 (C122_violates: the numbers are infinite and the message has no document; C122_zero: or a NaN). As in C100, new reference values and improper widths are left out.
* **C123 Without delayed replication and bitmaps every value has its fixed place in the data** (proved) — Two derivations of `Coded` for the same template agree on elements and packings, even with different ways of writing (`coded_steady`, induction over the first, cases on the second); `Coded.pieces` cuts the bits, `pieces_slice` and `subsets_slice` count them; `single_fun`: the bits determine the value. Theorems: `C123_plan`, `C123_local`, `C123_exactly`. C123_plan: the plan of a template, the lengths and the places, for messages with and without compression; C123_local: values with the same bits at the same place are the same in any two messages; C123_exactly: with doubles and lossless packings (C121) exactly those are the same. The conditions are those of C100 (`simpleL`, `Proper`, `ProperColumn`), `Unvarying` says that the template has no delayed replication and no bitmaps.
* **C124 The elements of a subset are determined by its replication factors and bitmaps** (proved) — `coded_steered`: two derivations of `Coded` for the same template agree on elements, packings and contexts as long as the values of class 31 agree; the induction carries the values of class 31 that are still to come, so that equality of all of them gives equality of each factor and each bitmap when it is met. Theorems: `C124_subsets`, `C124_compressed`, `C124_mixed`. C124_subsets: any two subsets of uncompressed messages; C124_compressed: two compressed messages; C124_mixed: one of each. The conditions are those of C100; `Steered` says that replication factors and the elements of bitmaps are of class 31. The example decodes a message with three subsets of 101000 031001 012001.
* **C125 A message that cannot be decoded does not keep those behind it from being decoded** (partial) — `peek` refuses within a byte, so `seekLoop` fails at once and leaves the reader as it is (C09_peek_unaligned, C09_peek_no_effect); with another edition `boot` fails after two peeks (C68_found, `peekUint_byte`). What holds is C72_next, which makes no assumption on what a failed call left in the factory. Theorems: `C125_partial`, `C125_stream`, `C125_stuck`, `C125_edition`, `C125_violates`, `C125_violates_edition`. Violated: C125_violates (a section 4 that is one byte too short stops the decoder within a byte; no later call succeeds) and C125_violates_edition (a message of edition 2 is never passed). C125_stuck and C125_edition say this for all inputs of the kind. C125_partial: if the failure is at the end of a byte and no signature comes before the next message, the very next call returns it. C125_stream: and the calls after that return all messages behind it.
* **C126 Decoding keeps the order of numbers** (proved) — A rounded number is nearest if it is finite (`ofRat_near`), and two nearest numbers cannot be in the wrong order (`ofRat_mono`); sum and quotient are rounded exact results (`add_val`, `div_val`), and powers of ten are not negative (`pow10_sign`). Strictly: C120_recover. Theorems: `C126_value`, `C126_read`, `C126_strict`, `C126_column`, `C126_message`. C126_value: the value of a raw number, with or without compression (C43); C126_read: what is read from the input; C126_strict: strictly, for sums of at most 48 bits and scales from -200 to 200; C126_column: the numbers of a compressed column are in the order of the increments, and none is less than the one of the base; C126_message: numbers at the same place in two subsets, for templates as in C123. That doubles are finite is C122.

## Disagreements between the code and the properties

Each is modelled as it is; theorem names in brackets.

Reading and writing bits
1. `BitReader.ReadBinary` drops the error of a short read and returns (nil, nil) [C07_readBinary_violates, C53_violates, C80_violates]; `Padding` then dereferences nil [C66_truncated_panics, C73_panic].
2. `NewBinaryFromUint` never terminates (unsigned loop variable) and its mask 127 loses the top bit [C13_violates].
3. `ReadInt(0)` consumes one bit but does not move the position [C06_readInt0_violates, C53_violates_code].
4. `Binary.String` and `NewBinary` do not mask the unused bits of the last byte; `Bit(n)` with n ≤ -8 panics; `UnmarshalJSON` ignores errors [C11_unmarshal_ignores_errors].
5. The peekable JSON reader's `ReadFloat32` calls itself for ever [C17_readFloat32_diverges]; looking back past a cached token gives the wrong token [C15_look_back_violates]; a cached null is dropped [C15_null_dropped].

Tables and templates
6. Missing WMO tables do not fall back, although the documentation says so [C25_violates].
7. A replication can take descriptors from beyond its enclosing sequence [C33_scope_violates].
8. The parser pads a template that ends inside a scope with nil descriptors instead of rejecting it [C34_violates, C40_violates]; inside an assessment it panics [C36_violates, C41_end_violates].
9. `notPresent` is always false, so elements under 221YYY are read [C39_violates].
10. Lint compares YYY instead of XX with the number of members [C77_repl_violates].
11. The dump counts lines of a compound factor differently [C78_count_violates].

Values
12. Elements wider than 64 bits decode 0 as missing [C42_wide_violates].
13. Increments of one bit are never missing [C43_width1_violates].
14. Compressed signed columns panic [C46_violates]; compressed 206YYY columns do not terminate [C47_violates].
15. `LastCellEquality` compares interface values and panics on `[]byte`.

Payload
16. 203YYY panics on a nil map [C62_violates].
17. Bitmaps without a defining operator dereference nil [C63_violates].
18. `TreeBuilder.Push` does not attach the node to its parent [C60_violates].
19. The widening of 225255 tests the wrong descriptor [C61_violates].
20. The factor of a delayed replication counts as a bitmap bit [C83_violates] and as a quality value [C64_violates]. This makes three shipped sample files fail.
21. `assocPairs.Pop` panics when no 204 is open; a compressed payload with 0 subsets panics; a bitmap of length zero is an error.

Messages
22. `CheckEOF` never reports the end [C69_violates].
23. The Lua name `BIN` is undefined, so bit string fields are read as integers [C84_violates]; the fidelity run shows the same difference against the recorded outputs.
24. The `assert` of section 5 is never called: any four bytes end a message [C71_violates].
25. The total length is not checked [C87_violates].
26. A section 2 shorter than its header moves the position backwards [C85_violates]; a section 3 shorter than its header panics [C67_negative_panics].
27. With flat JSON input the edition number is taken from the wrong token [C82_violates].
28. `json.Marshal` writes `[]byte` values in base64, so all text comes out unreadable and differs from the recorded outputs in _regression [C90_violates]; a payload without subsets is `null` [C90_empty_violates].
29. The JSON document of a decoded message is never accepted as JSON input [C91_never].
30. The generated `String` methods are stale: units print as NUMERIC, STRING, CODE, FLAG, COMMON_CODE, BIN, the data type BINARY as BIN [C92_violates].
31. Input can crash the decoder: a section 3 length below 6 (`make` with a negative length), the end of the input in padding (nil pointer), 204000 without associated field (slice bounds), compressed data of 0 subsets (index) [C94_crashes].
32. `NewMessage` does not reset the current section: a field created between `newMessage` and `newSection` is added to the last section of the previous message [C96_violates]. The shipped scripts call `newSection` first.
33. JSON input cannot express missing values: `JsonUnpacker` has no case for null, which the JSON output writes for them, and the readers refuse it [C98_violates].
34. Bits skipped with 206YYY need not be there: `ReadBinary` of the bit reader swallows the error, and the value is a nil `*Binary` [C99_violates].
35. An assessment may have fewer values than the bitmap selects elements; the remaining elements silently get none (`VisitOpAssessmentNode` walks over the sources, not the targets). More values than selected elements panic [`OnlyExample.input_values`, C99].
36. Compressed columns are accepted that the rules do not allow: base plus increment may exceed the width of the column, wrapping around at 64 bits [`Lenient.increments`, C99_compressed_exactly]; a signed number (new reference value) or skipped bits are accepted with increments only if all increments are missing [`Lenient.noSigned`, `Lenient.noBits`].
37. Compressed data whose delayed replication factor is a text (0 01 015, say) panic when the factors are compared: two byte slices behind interfaces cannot be compared in Go (cellsbuilder.go, LastCellEquality) [C65_violates].
38. A local section (section 2) that says it has less than four bytes is accepted; the reader goes on four bytes behind its start whatever it says [C100_violates].
39. Asking a section for metadata that was not stored ends the whole program (`log.Fatalf`, section.go:43) [C101_violates].
40. A definitions directory with `;` or `?` in its path: boot.lua is found, the modules it requires are not, because the path is put into `package.path` as it is [C104_violates].
41. A flat JSON message is decoded only if its update sequence number happens to be its edition number and the flag and reserved bits declared as `BIN` are written as numbers while the others are strings [C105_only, C105_never].
42. A bitmap that selects fewer elements than there are quality values makes the decoder panic with an index out of range; one that selects more is accepted, and the elements selected last silently get no value [C106_violates, C106_violates_more].
43. Three of the fifteen message files that come with the program are not decoded any more: g2nd_208 and mpco_217 make the decoder panic, because the factor of a delayed replication around the statistics counts as one more of them, and rado_250 is refused, because the factor around the bitmap counts as one more bit [C107_violates].
44. `ReadBinary` at the end of the input returns nil and no error, so a prefix of a message can read differently from the message itself [C08_violates; see C07]; a peek beyond 4096 bytes is refused although reading works [C09_violates].
45. After an optional section that announces less than 4 bytes, the place recorded for section 4 is not where its data are [C86_violates; see C85].
46. `section:getField(name)` in a script gives an object for a name that is not there; it is a nil pointer, does not compare equal to nil and panics when used [C108_violates].
47. In compressed data only the first subset's bits of a bitmap are read. If another subset has other bits, its quality values are attached to the wrong elements without an error [C109_violates]. Replication factors are compared between subsets (C65), bitmaps are not.
48. The comment of `Walk` (/repo/table/template.go:104-105) says that a fixed replication is walked X times. The code walks it Y times, as the Code Manual and the decoder have it (C113); the comment is wrong.
49. A compressed message with opaque bits, be it an element of unit binary or a skipped local descriptor (206YYY), makes the decoder hang, because `NewBinaryFromUint` loops for ever, using more and more memory (C13, C47) [C116_violates]. Apart from tables with cycles it is the only way to make it hang [C116_partial].
50. A few bytes can be decoded to any number of values: the operator 201YYY takes all bits away from a number, and nested replications repeat it without using up the input. 67 bytes make 255 ^ 9 values (the replications in deserialize/payload/desvisitor.go have no limit) [C118_bomb, C118_violates]. Without values of width 0 there are no more values than bits [C118_partial].
51. Numbers with a scale below -4 are not decoded to the nearest double: the code divides by math.Pow10(scale), which for negative scales is not exact (deserialize/unpack/unpacker.go:37-55). 002067 (radiosonde operating frequency, scale -5) with the raw value 1 comes out as 99999.99999999999 Hz instead of 100000 [C119_violates]; multiplying by math.Pow10(-scale) would be exact. Scales from -4 to -1 are harmless [C119_tens], and in no case are different raw values confused [C120_injective].
52. Wide numbers lose digits: 201YYY can make numbers of more than 53 bits, and different ones are decoded to the same double without notice (deserialize/unpack/unpacker.go:42) [C121_violates].
53. A table with a scale of -324 or less makes numbers infinite or NaN (10^scale is 0 as a double), and the message cannot be written as JSON (deserialize/unpack/unpacker.go:42); the tables are not checked when they are loaded [C122_violates, C122_zero].
54. A decoder does not recover from every broken message. After a failure within a byte all further calls of `Run` fail without moving the reader, because `SeekStartSignature` peeks and `peek` refuses away from byte boundaries (`deserialize/factory.go`, `tdcfio/bitreader.go`) [C125_stuck]. A message of an edition other than 3 and 4 is not skipped either: `boot.lua` fails having only peeked, and the next call finds the same signature again [C125_edition].

## Fidelity run

The model is executable. With Lean's `Float` for Go's float64 it was run on all 15 sample files in /repo/_testdata and compared
with the recorded outputs in /repo/_regression (written by an earlier version of the program). The runner is
`fidelity/Run.lean.txt` (to be started with `lake env lean --run` on a copy named `.lean`), its output `fidelity/result.txt`:

* 12 files with 17 messages decode to the recorded values, 293,523 values in 775 subsets: 207003, ISMD01_OKPR (4 messages),
  IUSK73_AMMC_040000, IUSK73_AMMC_182300, amv2_87, asr3_190 (3 messages), b002_95, b005_89, contrived, jaso_214,
  profiler_european, uegabe. Two differences: the `BIN` fields (item 23) come out as integer 0 where the recording has a
  bit string; for `contrived` the recording has an empty second subset and the model decodes both.
* 3 files fail in the model, as the pinned code must: g2nd_208 and mpco_217 panic and rado_250 is refused because of
  items 20 and 43. With the two places changed so that the factors do not count, the model decodes these three to the recorded
  values as well (882, 18,304 and 4,036 values), so nothing else stands in the way.
* Four of the messages are decoded inside Lean by the kernel, and one of the failures is proved (C107).



## Mutation testing

In a scratch copy one definition of the model is edited the way a programmer could get it wrong, and the project is rebuilt.
A surviving edit whose English claim is now false means a theorem is too weak; it is then tightened.
Note that an edit can make a helper lemma fail before the theorem itself; the log therefore names both the theorems that fail
directly and the claim the edit was meant to break.


973 edits logged in `seeded/LOG.jsonl`; 937 made at least one theorem fail; 22 led to a new or stronger theorem.


## Axioms

From `#print axioms` on every theorem of the manifest. No theorem uses anything else.

* `propext`: C05_width_mismatch, C06_violates, C07_violates, C08_violates, C09_peek_no_effect, C09_peek_unaligned, C11_unmarshal_ignores_errors, C13_newBinaryFromUint_diverges, C13_violates, C15_look_back_violates, C15_violates, C15_null_dropped, C17_readFloat32_diverges, C17_readFloat32_cached_partial, C17_violates, C20_first_match, C20_local_shadows, C20_reset, C21_total, Mgr.C24_failed_load, Mgr.C24_loads_again, C25_fallback_partial, C25_violates, C30_only_waits, C41_parts, C42_wide_violates, C43_width1_violates, C52_numbering, C59_cancel, C59_cancel_backref, C59_none, C63_adhoc_panics, C69_never, C69_violates, C76_success, C76_missing, C76_agree_float, C76_wraps, C77_element, C77_repl_violates, C77_repl_partial, C77_unimplemented, C102_violates, UnitTests.C110_keeper, UnitTests.C110_lint
* `Quot.sound`, `propext`: C06_readInt0_violates, C09_limit, C12_newBinary_validates, C18_one_bit, C18_non_uint, C20_fails_iff, C20_reset_add, C21_routes, C21_lookup_id, C21_chain_lookup_id, Mgr.C23_no_livelock, Mgr.C23_bounded, Mgr.C24_requests_answered, C26_wrong_type_d, C26_dentry, C26_load_all_or_nothing, C26_load_content, C26_load_order, C26_table_d, C28_expand_iff, C28_faithful, C28_failure, C28_complete, C29_bracketed, C29_events_determine, C30_walk_iff, C30_block_count, C32_expand_diverges, C33_end_partial, C42_negative, C42_binary, C48_zero_width, C62_use_partial, C67_negative_panics, C74_proxy_last, C75_order, C75_first, C76_agree, C77_assoc, C77_refval, C83_harmless, C90_empty_violates, C90_cells, C93_id, C93_column, C98_violates, C99_violates, C116_ranked
* `Classical.choice`, `Quot.sound`, `propext`: the other 387 theorems

# Formal model of docria in Lean 4

The theorems are about a Lean model written by reading `/repo/py/docria`. Nothing in `/repo` was executed. Every
definition of the model cites the file and lines it models; where it simplifies, its comment says so.

## 1. Trusted base

* Lean 4.33.0's kernel, and the axioms `propext`, `Quot.sound`, `Classical.choice` of its standard library
  (section 8 lists them per theorem). No other axiom, no `sorry`, no `native_decide`, no `bv_decide`. Mathlib is
  not imported.
* The reading of the Python source into the model, definition by definition, is the link to the code.
  As a check of that reading, `Verif/Cases/PythonTests.lean` and `Verif/Cases/JavaTests.lean` run the model on the
  repository's own tests (`py/tests/test_simple.py`, `test_algo.py`, `test_io.py`; `MainTest`, `AlgoTest`, `IoTest` of
  the Java library): each assertion is an equation that the kernel computes. Two of the tests hold documents that the
  libraries themselves have written (Python's in `MainTest.java`, Java's in `test_simple.py`). The model of either
  writer produces these documents byte for byte, and the model of either reader reads the other's. Left out are the
  Java tests of gzip, of nodes of a class, and of 16384 and more tokens.
* The semantics of CPython built-ins as written in `Verif/Py/*` and in the head comments of the model files:
  `slice.indices`, list and str slicing and indexing, `str.find`, insertion-ordered `dict`, stable `list.sort`,
  `set` membership (no theorem depends on the order in which a set is iterated), `==` and `<` of numbers and str,
  UTF-8, `html.escape`, `str.format` of widths, `re` for the two patterns used, `json.dumps` / `json.loads`.
* `msgpack` (version 1.x with its defaults): `Verif/Py/Msgpack.lean` is written from the MessagePack format and the
  documented limits of the library (nesting 511/1024, 64-bit integers, sizes below 2^32). `requirements.txt` says
  `msgpack-python>=0.5.6`; before 1.0 the default of `use_bin_type` is False, and bytes among the properties
  (codec.py:613) would come back as str.
* The decimal form of finite floats in JSON (`repr` and `float`) is a parameter; `Spec.FloatsExact` says what is assumed.
* Compression functions are parameters; the theorems that need it assume `decompress (compress x) = x`.
* What the operating system does (files, `tarfile`, `gzip`, `pickle` of plain tuples, `os.path` apart from `join` and
  `relpath`) is assumed to work: files are byte strings, tar archives are lists of members.

## 2. Layout

```
lean/Verif/Py/      Python built-ins and the msgpack library
lean/Verif/Model/   the model, one file per area of the code
lean/Verif/Proof/   helper lemmas
lean/Verif/Props/   specification vocabulary (namespace Spec), the property theorems Cnn_..., non-vacuity examples
lean/Verif/Cases/   the model computed on single inputs, among them the repository's tests
lean/Verif/Audit.lean   fails the build if a property theorem depends on another axiom
seeded/LOG.jsonl    wrong programs tried against the theorems
```

## 3. Modelling decisions

* Exceptions are values (`Except PyErr α`). Where an operation can raise after having changed something, the model
  returns the changed state together with the error. Error messages are not modelled, exception types are.
* Object identity: nodes, layers and texts are numbered objects in a heap (`World`); `is` is equality of numbers. A
  node is `{ id, collection, fields }` exactly as in the code.
* A state is *reachable* when a list of API calls produces it from the empty document (`Model/History.lean`). Global
  properties are proved for all reachable states by induction over the calls, including calls that raised.
* Generators are the list of everything yielded plus the exception that ends them. Loops whose termination depends on
  an invariant take fuel; running out is the error `.unmodelled`, and the theorems show it does not occur.
* `PyErr.unmodelled` marks inputs the model gives no answer for (for example conversions like `int("3")`). Theorems
  that claim success are not affected; theorems that claim failure name the exception.
* `str` is `List Char` (Python indexes by code point). Lone surrogates are not representable.
* `float` is its 64 bit pattern; comparison of floats is modelled, arithmetic and printing are not.
* `assert` raises `AssertionError` (no `-O`).
* `filter(None.__ne__, xs)` drops `None`s (true for CPython <= 3.13).
* `0.75 * len > num` is `3*len > 4*num` (exact for every list that fits in memory).

## 4. What is modelled and what is not

| file | modelled | not modelled |
|------|----------|--------------|
| model.py | `Node` (index, detach, validity, neighbours, `iter_span`), `NodeCollection.__getitem__`, `NodeFieldCollection` predicates, `NodeSpan`, `NodeList`, `NodeLayerSchema`, `TextSpan`, `Text`, `DataType*` (encode, default, merging, `is_valid`), `ExtData`, `DataTypes` constructors and `typeof`, `NodeLayerCollection` (all mutators and readers), `NodeCollectionQuery`, `Document` (`add_text`, `add_layer`, `remove_layer`, `maintext`, `__getitem__`, `__contains__`, `compile`, pickling) ; `node.fld`, `is_valid`, `to_pandas` (as dict of columns), `printschema`, `__str__`/`__repr__` of documents, `_table_repr_` | `Offset` (unused by the code), `_ipython_*`, `__repr__` of types |
| codec.py | `Codec.encode`, `commit_layers`, `MsgpackCodec`, `MsgpackDocument`, `JsonCodec`, `XmlCodec` with ElementTree's `write`, `MsgpackDocumentExt` | |
| collection.py | `_BoundaryReader/_BoundaryWriter`, blocks, codecs' registry, block readers and writers, tar reader and writer, `DocumentFileIndex`, `DocumentIndex` search, `build_msgpack_directory_fileindex` (workers as an order of completion) | `save`/`load` (pickle) |
| algorithm.py | all | |
| query.py | all predicates | `__repr__` |
| printout.py | options, `truncate`, `Table` as text and HTML, `get_representation` (the `repr` of floats, bytes, ExtData and nested data is a parameter) | `set_footer` (never shown) |
| index.py | | `EdgeIndex` (every method is a stub) |
| storage.py | | empty |
| java: io/BoundaryWriter, io/BoundaryReader | all methods (the underlying stream is a file plus an arbitrary rule for short reads) | `close`, `flush` |
| java: io/ByteOutputBuffer, DeflateCodec, DocumentStreamWriter, DocumentStreamBoundaryWriter, DocumentStreamReader, MsgpackDocumentStreamReader | all methods on raw documents; the msgpack-java calls they make (header and payload of binaries, strings, ints, booleans, `skipValue`); deflate is what it produces in arbitrary portions | `close`, `position`; decoding the documents |
| java: DocumentStreamReader.nextBlock from threads | `readNextBlock` as steps of threads in any order, sequentially consistent | the Java memory model |
| java: Layer | all methods that change the layer, `get`, `first`, `last`, `contains`, `nodespan`, iteration | `toArray`, `create` |
| java: Text, Offset, Span | `span`, `initializeOffsets`, `reset`, `compile`; all of Span but `chars`, `codePoints`; Offsets as shared objects | `Text.equals`, hash codes |
| java: Document, Schema, DataType, DataTypeName, values, Node | `Document.add`, `remove`, `validateSchema`, `compile`; `Layer.add`, `removeField`; `Node.put`; values as an inductive type. Maps are dictionaries in key order (`props()` is a HashMap in Java; contents do not depend on its order) | (equality: see C99) |
| java: MsgpackCodec | `encode`, `decode` and all their parts, with msgpack-core's reading and writing of values | node factories beyond the fields of C98 |
| java: algorithms | `DominantRight`, `GroupBySpan` with its builder. Sets and maps of nodes compare objects (the same for nodes of a document whose layers have distinct ids) | |
| java: MsgpackDocument | all of it; negative lengths, and the unpacker of more bytes than there are that `properties()` would make for a file without layers, are `unmodelled` | |
| java: hadoop (DocumentWritable, DocriaWriter, DocriaOutputFormat, DocriaInputFormat) | all but `getProgress`; a file is the bytes written, the file system is not modelled; the DeflateCodec is any function that is undone | |
| java: Node.Builder, NodeSpan, type() of values | `put`, `build`, the constructors that check layers | nodes of other documents (a node of a layer with the same name in another document passes the builder), null arguments |
| java: Value, values/, Values.get, getters of Node | all readers of all values | `Double.parseDouble`, digits outside ASCII, floats, DocumentValue's text, hash codes |
| java: ConcreteNode | `get`, `put`, `has`, `forEach`, `setData`, the builder of interfaces, inherited `remove` and `get` with default; reading of single references | reading of arrays and spans of nodes into such fields |
| java: equality | `equals` and `hashCode` of values/*, Node, Layer, Span, Offset, Text, DataType; `HashMap.get` and `put` | null fields other than `layer`; arguments of types that are no plain values; the order and the buckets of hash maps |
| java: schemas | Schema.java, DataType.Builder, `Document(Schema)`, `Document.add`, `Layer.addField` and `removeField`, with shared maps | maps given by the caller to public constructors; node factories |
| py+java: extended fields | `doc_field`, `ext_field` of codec.py (codec.py:777-795), documents inside documents to any depth; `accept(ExtensionValue)` and the "ext" reader of MsgpackCodec.java | Python's limit on recursion; extended columns with other things than bytes or nil, if of type "doc" |
| codec.py: conversions of values when encoding | what `int`, `float`, `bool`, `str`, `bytes`, `len` and attribute access in the encoders (codec.py:36-59) make of values that are not of the declared type (Model/Convert, Py/Double) | text to float, non-ASCII text to int, `str` of floats, nodes, lists and dicts (`unmodelled`); the limit on the number of digits of `int` |
| model.py: `__iter__` while the layer changes | the iterator as a position in the list, filtered if there were gaps at the start (model.py:1655-1660), and loops with any body (Model/Iterate) | iterators of `nodes`, `iter_span` and dictionaries while they change |
| codec.py: `MsgpackCodec.debug` (526-590) | the lines as format string and values, and the outcome, also on data cut short (Model/Debug) | how Python writes the values; data in which an encoder would have written another type |
| Layer.java: `iterator`, `forEach` with a body that changes the layer, `removeAll(layer)`, `removeIf` (186-189, 297-304, 346-350) | the loop's list, its number of slots at the start, modCount as changed or not, the list that `compact` leaves behind (Model/JavaIterate) | `stream()` pipelines other than iteration; threads |
| collection.py: `MsgpackDocumentWriter` on a path, `close`, `__enter__`/`__exit__`, `DocumentIO.write` (442-529, 633-635) | the files by name, CPython's BufferedWriter with any buffer size, modes xb, wb and ab, calls after close(), with statements (Model/FileSession) | errors of the operating system; modes with `+`; two writers on one file |
| java: io/DocumentStreamWriter on a stream that raises (C109) | all methods, with MessagePacker's buffer; a closed stream refuses writes as FileOutputStream does | DocumentStreamBoundaryWriter on such a stream |
| py: collection.MsgpackDocumentWriter on a file object that raises or writes short (C110) | all methods; the codec does not raise (C106 has those that do) | a `_BoundaryWriter` on such a file object |
| py: collection.MsgpackDocumentReader on a file object that returns less than it is asked for (C111) | constructor, readblock, __next__; the unpacker's buffer and its limit, as the size of an object with at most five bytes of type and length besides | get and seek on such a file object; exceptions of its read; the unpacker's other limits (max_str_len and so on, which are the size of the buffer by default) |
| py: collection._BoundaryWriter on a file object that raises or writes short (C112) | constructor, write, _write_boundary, split | its close (which is the file object's); writing into an object that is changed meanwhile |
| py: collection._BoundaryReader on a file object that returns less than it is asked for (C113) | constructor, read(n), seek | read(-1), which reads to the end on a RawIOBase; a file object that returns None or raises |
| py: collection.MsgpackDocumentReader on a _BoundaryReader (C114) | constructor, __next__, readblock, the unpacker's reads of up to 1 MiB | seek and the context manager; a file object that returns less than it is asked for (C113) |


## 5. Per property: what is modelled, how it is proved, what is missing

Theorem names are those of `MANIFEST.json`. Names that end in `_fails`, `_breaks`, `_leaks`, ... are proved
counterexamples: concrete reachable states on which the code violates the stated property or a side condition
is needed.

**C01 Text slicing is Python slicing** — proved. Model/Text: `Text.__getitem__` on slices. Specification: Python's clamped indices on a list. Case analysis.
  `C01_text_slice`, `C01_text_slice_str`, `C01_text_slice_step`

**C02 Pair indexing is strict about bounds** — proved. `Text.__getitem__` on pairs; the exact domain in which a pair is accepted.
  `C02_pair_index`

**C03 Sub-spans stay inside their span** — partial. `TextSpan.__getitem__` on slices and pairs; case analysis.
  *Note:* slice form proved in full; the pair form escapes the span (C03_pair_escapes), proved for in-range pairs only.
  `C03_span_slice`, `C03_pair_escapes`, `C03_pair_wraps`, `C03_span_pair_partial`

**C04 Indexing a span by an integer** — partial. `TextSpan.__getitem__` on integers.
  *Note:* in-range indices proved; out of range indices are not rejected by the code (C04_not_full).
  `C04_out_of_range_leaks`, `C04_not_full`, `C04_span_index_partial`

**C05 covered_by and intersected_by are set inclusion and overlap** — proved. `covered_by`, `intersected_by` with span and pair arguments. Specification: sets of positions.
  `C05_covered_by`, `C05_intersected_by`, `C05_intersected_symm`, `C05_covered_order`, `C05_overloads`

**C06 trim removes surrounding whitespace only** — partial. the loops of `_trim_offsets`, by induction. Specification: dropping whitespace at both ends. Whitespace is a parameter.
  *Note:* one trim() leaves trailing whitespace when there was leading whitespace (C06_both_ends); what it does is characterised exactly, and trimming twice meets the property.
  `C06_both_ends`, `C06_trim_partial`, `C06_trim_twice`

**C07 Compiled text segments lose nothing** — proved. `Text.compile`; induction over the offsets.
  `C07_compile_general`, `C07_compile_lossless`

**C08 Span equality is an equivalence compatible with hash** — partial. `__eq__`, `__hash__`; the hash function of tuples is a parameter.
  *Note:* equal spans of different texts hash differently (C08_eq_hash_mismatch); proved within one text.
  `C08_eq_hash_mismatch`, `C08_eq_hash_partial`, `C08_eq_meaning`

**C09 Text between two spans** — proved. `text_to`, `span_to`, and `NodeSpan.text`, `textspan` on them.
  `C09_nodespan`, `C09_nodespan_unset`, `C09_span_to`, `C09_span_to_reversed`

**C10 A layer behaves as a plain list under any history** — proved. Model/Layer over the heap `World`: all mutators and readers. Refinement to a plain list per layer; invariant over all histories of calls, including those that raised.
  *Note:* the two side conditions are necessary: C10_failed_retain_breaks, C10_add_bound_breaks.
  `C10_layer_is_list`, `C10_failed_retain_breaks`, `C10_add_bound_breaks`

**C11 len(layer) counts the nodes iterated** — proved. corollary of the refinement: `len` is the number of iterated nodes.
  `C11_len`

**C12 Node indices address their node and follow iteration order** — proved. index of a node, `layer[i]`, slices; strictly increasing along iteration.
  *Note:* gaps are visible through layer[i] (C12_gap_is_visible); negative and missing bounds count from the number of slots (C12_slice_any).
  `C12_index`, `C12_slice`, `C12_slice_any`, `C12_gap_is_visible`

**C13 Neighbour navigation agrees with iteration order** — proved. `left`, `right`, `first`, `last` against iteration order.
  `C13_neighbours`, `C13_first_last`

**C14 Node spans enumerate the nodes between their ends** — proved. `NodeSpan` iteration, `iter_span` in both orders.
  `C14_len`, `C14_nodespan`, `C14_any_pair`

**C15 Compaction is invisible and makes indices dense** — proved. `compact`; same nodes, dense indices, everything else untouched.
  `C15_compact`

**C16 retain keeps exactly the given nodes** — partial. `retain`: marking loop and compaction loop.
  *Note:* proved for layers without gaps; with gaps the code raises AttributeError and corrupts indices (C16_retain_fails_on_gaps).
  `C16_retain_partial`, `C16_retain_fails_on_gaps`

**C17 Attachment status tells the truth** — proved. `is_dangling`, `in`, over all histories.
  `C17_attached`

**C18 sort is a stable sort that reindexes** — proved. `sort` as stable merge sort by key. Specification: permutation, sorted, ties in old order, reindexed.
  `C18_sort`

**C19 Removal bounds wasted slots** — proved. `remove` with automatic compaction; bound on the slots.
  *Note:* a raising batch is not bounded (C19_raising_batch_not_bounded).
  `C19_gap_bound`, `C19_gap_bound_single`, `C19_raising_batch_not_bounded`

**C20 add(**fields) is validated, defaulted and atomic** — partial. `add(**fields)`: validation, defaults, atomicity.
  *Note:* validation, defaults and atomicity proved; that defaults alone are accepted fails for float64() (C20_float_default_rejected) and is proved for the other defaults.
  `C20_add`, `C20_accepts`, `C20_float_default_rejected`, `C20_defaults_accepted_partial`

**C21 add_many appends all, validates and fills defaults** — proved. `add_many` with and without default fill and full validation.
  *Note:* a refused batch is not undone (C21_refused_batch_stays); a one-shot iterator escapes validation (C21_generator_not_validated), so the property is proved for lists.
  `C21_generator`, `C21_add_many`, `C21_bound_refused`, `C21_accepts`, `C21_refused_batch_stays`, `C21_generator_not_validated`

**C22 Adding and removing fields** — proved. `add_field`, `remove_field` and the defaults kept up to date.
  *Note:* a declared field is refused with TypeError instead of the documented SchemaValidationError.
  `C22_add_field`, `C22_remove_field`, `C22_add_remove`, `C22_declared_refused`, `C22_undeclared_remove`

**C23 Field validation accepts exactly the declared domain** — partial. `is_valid` of every type class. Specification: a relation `Spec.InDomain` written from the documentation.
  *Note:* False as stated: types with a string or bool default are not checked at all (C23_full_false, C23_string_with_default_unchecked, C23_bool_with_default_unchecked). C23_valid_iff_partial for all types of the factories that check, with lists for noderef_many; C23_nodespan_many for NodeSpans given to noderef_many.
  `C23_bool`, `C23_valid_iff_partial`, `C23_nodespan_many`, `C23_string_with_default_unchecked`, `C23_bool_with_default_unchecked`, `C23_full_false`

**C24 Numeric type merging is a join** — partial. `cast_up_possible`, `cast_up`, `NodeList` field types. Order independence by permutation.
  *Note:* merging proved in full; NodeList loses the merged type (C24_nodelist_type_lost).
  `C24_cast_up`, `C24_possible`, `C24_merge`, `C24_order_independent`, `C24_nodelist_type_lost`, `C24_nodelist_partial`

**C25 A referenced layer cannot be removed silently** — partial. `remove_layer`.
  *Note:* node span references are ignored, cascade leaves the fields, the result is None: C25_nodespan_reference_ignored, C25_cascade_leaves_field.
  `C25_del`, `C25_referenced_refused_partial`, `C25_removes`, `C25_absent`, `C25_nodespan_reference_ignored`, `C25_cascade_leaves_field`

**C26 Compiling rejects unresolved schema references and undeclared fields** — proved. `Document.compile`: schema references and undeclared fields.
  `C26_schema_error`, `C26_undeclared`

**C27 The offset table is a strictly increasing bijection** — proved. the offset table: strictly increasing, contains every span end, inverse of the index dict.
  `C27_offsets`, `C27_ends`, `C27_inverse`

**C28 Encoding does not change the document** — proved. `compile` leaves everything observable as it was.
  `C28_compile_pure`, `C28_encode_pure`

**C29 Document encode/decode round trip** — proved. `Codec.encode`, `commit_layers`, decoding of plain data. Equality of documents is `Spec.SameDoc`, a correspondence of nodes preserving every observation.
  *Note:* observable equality is Spec.SameDoc; valid documents are Spec.Encodable (no ext fields, no None in a span field, options not named self/typename).
  `C29_round_trip`

**C30 The byte format of values is self delimiting and invertible** — proved. the MessagePack format: structural induction over values; prefix freeness.
  `C30_unpack_pack`, `C30_truncated`, `C30_prefix_free`, `C30_sequence`, `C30_packs`

**C31 MessagePack bytes round trip** — proved. `MsgpackCodec.encode`/`decode` on bytes, on top of C29 and C30.
  *Note:* valid documents as in C29; C31_encodes gives the size limits under which bytes are written at all.
  `C31_round_trip`, `C31_encodes`

**C32 Re-encoding a decoded document is stable** — proved. encode after decode gives the same bytes.
  `C32_stable_data`, `C32_twice_data`, `C32_stable`, `C32_twice`

**C33 Lazy access agrees with full decoding** — proved. `MsgpackDocument`'s lazy parts against full decoding; byte positions.
  `C33_lazy`

**C34 Foreign data is refused** — proved. magic bytes on every route.
  *Note:* MessagePack documents (DM_1), the two reading routes, and block files (Dmf1).
  `C34_block_file_magic`, `C34_block_file_refused`, `C34_foreign_refused`, `C34_accepted`

**C35 Selective reading returns the selection** — partial. `properties`, `texts`, `document` with names.
  *Note:* properties proved; texts(*names) is always empty (C35_texts_always_empty) and document(*layers) raises KeyError unless all layers are named (C35_some_layers_raise).
  `C35_properties_partial`, `C35_texts_always_empty`, `C35_all_layers_partial`, `C35_some_layers_raise`

**C36 Pickling preserves documents** — partial. `__getstate__`/`__setstate__` of both document classes.
  *Note:* Document proved; a restored MsgpackDocument keeps its bytes but loses its reference (C36_reference_lost).
  `C36_document`, `C36_bytes_partial`, `C36_reference_lost`, `C36_of_document`

**C37 No reference is silently redirected** — partial. `validate`, `compile` and the encoders on references; counterexamples and the exact condition.
  *Note:* encoding silently redirects references: C37_replaced_layer_redirects, C37_replaced_text_redirects, C37_removed_node_redirects (validation off), C37_decoded_removed_node_redirects (decoded documents, validation on). Proved under NoImpostors/RefsChecked; indices written for resolving references are proved right in general.
  `C37_replaced_layer_redirects`, `C37_replaced_text_redirects`, `C37_removed_node_redirects`, `C37_decoded_removed_node_redirects`, `C37_full_false`, `C37_validated_partial`, `C37_noderef_index`, `C37_nodes_index`, `C37_nodespan_index`, `C37_span_index`

**C38 Boundary writer layout** — proved. `_BoundaryWriter` as a state machine; layout by induction over the calls.
  `C38_layout`, `C38_length`, `C38_chunks`

**C39 Boundary markers point at the last record start** — proved. markers against the last split.
  `C39_blocks`, `C39_markers`

**C40 Boundary offset translation** — proved. `seek`, `tell` arithmetic.
  `C40_translation`, `C40_increasing`, `C40_tell`, `C40_tell_before_marker`

**C41 Boundary reader returns the payload** — partial. `_BoundaryReader.read` and its copy loop.
  *Note:* The full statement fails: reads that stop exactly at the end of a segment raise AssertionError, and the initial guess is wrong near the start of later segments; both proved with witnesses. The partial theorems cover all other reads.
  `C41_reads_partial`, `C41_small_partial`, `C41_all_partial`, `C41_fails_at_end`, `C41_fails_inside`, `C41_full_fails`

**C42 Block files return the documents written** — proved. `MsgpackDocumentWriter` and `MsgpackDocumentReader` as state machines; all sequences of write and flush.
  `C42_round_trip`, `C42_boundary`, `C42_builtin_codecs`, `C42_register`, `C42_documents`

**C43 Document references are stable random access handles** — partial. references given by reading and `get`, all interleavings.
  *Note:* False as stated: readblock() in the middle of next() gives wrong references (C43_interleaved_blocks_fail). C43_references_partial: all interleavings of next() and get(), and the references of blocks()/documents().
  `C43_references_partial`, `C43_interleaved_blocks_fail`

**C44 A truncated file yields a prefix** — proved. reading a prefix of a file.
  `C44_truncated`

**C45 Index search is exact** — proved. `DocumentFileIndex.build`, `search`, `DocumentIndex`. Specification: the documents whose properties equal the conditions.
  *Note:* Single files in full; several files when the working directory is the base path (C45_other_directory_fails shows that it is needed).
  `C45_search`, `C45_no_conditions`, `C45_unhashable`, `C45_build`, `C45_relative_path`, `C45_files`, `C45_other_directory_fails`

**C46 Blocks hold the configured number of documents** — proved. sizes of the blocks written.
  *Note:* C46_failed_flush_grows shows that the no-failed-flush hypothesis is needed.
  `C46_block_sizes`, `C46_failed_flush_grows`

**C47 Tar collections return the documents written** — proved. `TarMsgpackWriter`/`Reader` over a list of members.
  *Note:* The tar container is a list of members; sizes and headers are not modelled.
  `C47_round_trip`, `C47_names`, `C47_names_sorted`, `C47_names_sorted_fails`

**C48 Breadth first search is complete and depth exact** — proved. `bfs`; loop invariant; specification: reachability and distance.
  `C48_bfs`

**C49 Depth first search is complete** — proved. `dfs`; specification: preorder of the first-visit tree.
  `C49_dfs`

**C50 Leaf search returns the leaves** — partial. `dfs_leaves`.
  *Note:* violated on cyclic and on shared graphs (C50_cycle_fails, C50_sharing_fails); exact description of what is yielded on every finite graph (C50_dfs_leaves), the property itself on trees (C50_tree_partial).
  `C50_dfs_leaves`, `C50_tree_partial`, `C50_cycle_fails`, `C50_sharing_fails`

**C51 children_of enumerates the declared children** — partial. `children_of` and its composed generator.
  *Note:* proved for one property; violated when two given properties are set (C51_shadow_fails); proved for several properties when only the last is set.
  `C51_single`, `C51_refused`, `C51_several_partial`, `C51_shadow_fails`

**C52 group_by_span groups exactly the intersecting nodes** — proved. `group_by_span`: marks, sort, sweep, filters; invariant of the sweep over the sorted marks.
  *Note:* The group nodes and the nodes of each layer are taken as distinct; C52_duplicate_fails shows a node given twice raises KeyError. The order inside a bucket is not claimed: the code iterates a set.
  `C52_group_by_span`, `C52_duplicate_fails`

**C53 dominant_right returns a conflict free selection** — proved. `dominant_right`: sweep invariant; maximality and disjointness.
  `C53_dominant_right`, `C53_dominant_right_span`

**C54 span_translate maps spans through the extraction** — proved. `span_translate`: marks, sweep, assignment.
  *Note:* C54_translate is the full positive statement, C54_raises_otherwise its converse. Mapping intervals are taken nonempty; C54_empty_interval_fails shows an empty mapping interval makes later ones raise.
  `C54_translate`, `C54_raises_otherwise`, `C54_empty_interval_fails`

**C55 Token alignment** — proved. `sequence_to_textspans`: the alignment loop.
  *Note:* Token windows have nonnegative offsets; C55_negative_start_fails shows a negative start gives a wrong window.
  `C55_textspans`, `C55_greedy`, `C55_negative_start_fails`

**C56 Query predicates form a boolean algebra** — proved. the predicate classes; structural induction; meaning of each comparison given separately.
  *Note:* NodeSpan, ExtData and dict values compare by identity and are left out (unmodelled). is_any agrees with == for values other than spans, lists and floats; C56_is_any_text_fails shows that it does not for the text of a span.
  `C56_meaning`, `C56_short_circuit`, `C56_selections`, `C56_eq`, `C56_eq_float`, `C56_order`, `C56_order_complement`, `C56_is_none`, `C56_span_predicates`, `C56_is_any`, `C56_is_any_text_fails`

**C57 Queries select in order, as a snapshot** — proved. `NodeCollectionQuery`; heap of query objects.
  *Note:* Predicates that raise make the query raise; C57_stale_inner_fails shows that update() of a query on a query reads the inner query's stored nodes.
  `C57_query`, `C57_collections`, `C57_snapshot`, `C57_update`, `C57_stale_inner_fails`

**C58 Truncation bounds cell width** — partial. `truncate` and the option setters.
  *Note:* Violated when max_display_width is None (TypeError, C58_no_display_fails) and for fractional widths between 6 and 7 (C58_fraction_fails); proved for every other combination of settings.
  `C58_truncate_partial`, `C58_no_display_fails`, `C58_fraction_fails`, `C58_max_columns_getter_fails`

**C59 Row truncation shows head and tail with right numbers** — proved. `_compile_text`, `_compile_html` row selection.
  *Note:* For any row formatter, so for text and HTML.
  `C59_rows`, `C59_succeeds`, `C59_text`, `C59_build`

**C60 Wrapped tables show every column once** — partial. `render_text` block loop.
  *Note:* Violated: a block keeps the column that exceeds max_display_width (C60_too_wide_fails; C60_columns_partial shows that every block but the last is too wide). Proved: termination, consecutive blocks, every column once, in order, exact lines and widths, and that without its last column a block fits. A shown row with fewer values than the header raises IndexError (C60_short_row).
  `C60_columns_partial`, `C60_short_row`, `C60_once`, `C60_line_width`, `C60_too_wide_fails`

**C61 HTML output cannot be injected by data** — partial. `render_html`, `html.escape`; a small HTML tokenizer is the specification.
  *Note:* A small tokenizer with character references is the specification. Proved for all tables; violated for the name of a Text (C61_text_name_fails) and for a row index supplied by the caller (C61_index_fails). C61_wikipedia_fails: urn:wikipedia:x raises IndexError.
  `C61_escape`, `C61_cell`, `C61_table_partial`, `C61_text_partial`, `C61_text_name_fails`, `C61_index_fails`, `C61_wikipedia_fails`

**C62 XML string cleaning** — partial. the pattern of `_string_encoder`.
  *Note:* Only allowed characters, same length, idempotent, allowed BMP characters kept. Allowed characters beyond U+FFFF are replaced by a space (C62_astral_fails: the regular expression is written with five- and six-digit \u escapes).
  `C62_allowed`, `C62_length`, `C62_unchanged_partial`, `C62_astral_fails`

**C63 XML export carries the document** — partial. `encode_intermediate`, `encode_tree`.
  *Note:* The tree of every valid document without binary data shows properties, schemas, segments, every field of every node; values recoverable; xml:ids unique. Binary data and verbose_node_spans make the export fail (witnesses); a field named like xml:id is overwritten; texts are not cleaned. Float and object printing are parameters.
  `C63_tree_partial`, `C63_recover`, `C63_ids`, `C63_verbose`, `C63_binary_fails`, `C63_verbose_spans_fails`, `C63_id_field_fails`, `C63_text_char_fails`

**C64 Schema type encoding is invertible** — partial. `DataType.encode` and the decoding of types.
  *Note:* False as stated: an option named self or typename makes decoding raise (C64_option_typename_raises). C64_types_partial for all other option names.
  `C64_types_partial`, `C64_names_distinct`, `C64_injective`, `C64_option_typename_raises`

**C65 JSON text** — proved. `json.dumps`, `json.loads` as a writer and a scanner; mutual structural induction over data.
  *Note:* json is part of the standard library: modelled from its documented grammar and pure Python sources. The decimal form of finite floats is a parameter assumed exact (Spec.FloatsExact). NaNs other than float('nan') are excluded.
  `C65_round_trip`, `C65_injective`, `C65_bytes_raise`, `C65_printable`, `C65_truncated`

**C66 JSON codec round trip** — proved. `JsonCodec`; the object written is read back to the data of C29, whose round trip is reused.
  *Note:* For documents without bytes (Spec.JsonDoc); documents with bytes in a field are refused (C66_bytes_refused). Floats as in C65.
  `C66_round_trip`, `C66_stable`, `C66_codecs_agree`, `C66_truncated`, `C66_bytes_refused`, `C66_foreign`, `C66_texts_present`

**C67 Node lists** — partial. `NodeList` with set iteration orders as parameters; induction over nodes, layers and fields.
  *Note:* elements, columns and refusals proved in full; a field with several numeric types gets no type at all (C67_numeric_type_lost), so types are proved for fields with one type name.
  `C67_types_partial`, `C67_accepts`, `C67_elements`, `C67_column`, `C67_layer`, `C67_numeric_type_lost`, `C67_types_full_false`

**C68 Documents as containers** — partial. `Document` as a container; the main text over every call of Model/History.
  *Note:* the setter refuses a second main text, but add_text('main', ...) replaces it (C68_add_text_replaces_main); no other call does.
  `C68_add_text`, `C68_maintext_once`, `C68_maintext_partial`, `C68_add_text_replaces_main`, `C68_maintext_full_false`, `C68_add_layer`, `C68_contains`

**C69 Layer schemas take each field once** — proved. `NodeLayerSchema.add`, `set`; induction over the new fields.
  `C69_add`, `C69_set`

**C70 Printing layers, queries, node lists, spans of nodes and nodes** — partial. `get_representation`, `repr` of str, nodes and spans, `_table_repr_`; induction over fields and nodes; HTML through C61; `repr` inverted character by character.
  *Note:* tables, cells, HTML and quoting proved in full, and exactly which layers print; a layer that refers to a removed node does not print (C70_dangling_fails), nor one with '%' in its name (C70_percent_fails), and rows of a node span behind a gap carry wrong numbers (C70_span_numbers_fail).
  `C70_showable`, `C70_shows`, `C70_caption`, `C70_layer_prints`, `C70_layer_partial`, `C70_list`, `C70_query`, `C70_node`, `C70_html`, `C70_no_link`, `C70_repr_plain`, `C70_repr_injective`, `C70_span_partial`, `C70_dangling_fails`, `C70_percent_fails`, `C70_span_numbers_fail`, `C70_layer_full_false`

**C71 Embedded documents and extended data** — partial. `ExtData`, `MsgpackDocumentExt`; through C29; ext fields refuted by a lookup that always fails.
  *Note:* embedding and ExtData proved in full; a document in which a layer declares an extended field cannot be encoded at all (C71_ext_field_fails, C71_full_false: the codec has no encoder for the type).
  `C71_round_trip_partial`, `C71_encode_pure`, `C71_decode_twice`, `C71_ext_data`, `C71_ext_data_odd`, `C71_ext_field_fails`, `C71_full_false`, `C71_type`

**C72 The index of a directory covers its docria files** — partial. A regular expression matcher proved right (Py/Regex), then C45 file by file; induction over the files in completion order.
  *Note:* proved for files whose stem has no dot; files such as news.2019.docria are skipped without a word (C72_dotted_left_out). Processes are modelled as an order of completion.
  `C72_names`, `C72_search_partial`, `C72_order`, `C72_builds`, `C72_ignores`, `C72_all_or_nothing`, `C72_dotted_left_out`

**C73 Accessors of nodes, layers and queries** — partial. `get_prop`, `chain`, `_DictAsMembers`, `is_valid`, item access; induction over functions and over declared fields.
  *Note:* all proved, is_valid() for nodes of a layer with values of the right kind in reference fields: it raises AttributeError for a node of no layer (C73_full_false) and for e.g. None or an int in a noderef or nodespan field (C73_wrong_kind_raises); query[name] only for queries of a layer, others raise AttributeError (C73_query_of_query_fails).
  `C73_get_prop`, `C73_chain`, `C73_chain_raises`, `C73_fld`, `C73_is_valid`, `C73_is_valid_partial`, `C73_layer_getitem`, `C73_query_field_partial`, `C73_query_of_query_fails`, `C73_full_false`, `C73_wrong_kind_raises`

**C74 A layer as a data frame** — partial. `to_pandas` as the dict of columns; induction over fields and nodes.
  *Note:* proved for layers without a field called __ref, whose values are lost (C74_ref_lost, C74_full_false), and, where spans are materialised, with spans in span fields: None becomes the text None (C74_none_is_text). A data frame is the dict of its columns.
  `C74_frame_partial`, `C74_unknown`, `C74_ref_lost`, `C74_none_is_text`, `C74_full_false`

**C75 Printing a document and its schema** — partial. `Document.__str__` through C58-C60, `__repr__`, `printschema`; sorting by C70's `sortNames`.
  *Note:* str() proved for all options but a column width without display width (C75_str_fails); repr() and printschema in full, for values whose str() is modelled; a field of unknown type does not print (C75_unknown_type).
  `C75_repr`, `C75_printschema`, `C75_unknown_type`, `C75_str_partial`, `C75_str_fails`

**C76 Java and Python boundary writers make the same file** — partial. Model/JavaBoundary: the Java writer, its loop compared with the Python writer's loop step by step; then C38 gives the layout.
  *Note:* array writes and splits in full; write(int) loses the last byte before a marker (C76_byte_lost, C76_full_false), proved for all other bytes.
  `C76_same_file`, `C76_refuses`, `C76_layout`, `C76_byte_partial`, `C76_byte_lost`, `C76_full_false`

**C77 The Java boundary reader is the payload as a stream** — partial. the Java reader over a stream with arbitrary chunking. Specification: the payload as a list. Invariant: the reader's position, its segment and what is left of the payload agree. The endless loop is proved for every number of iterations.
  *Note:* read() and read(byte[],int,int) in full except over a stream that answers 0 to an empty read at its end when the file ends exactly where a marker would begin: there the loop never ends (C77_hangs, C77_full_false). skip does not count what it skips (C77_skip_uncounted, C77_skip_full_false). available counts later markers when the next thing is a marker (C77_available_over).
  `C77_reads_partial`, `C77_hangs`, `C77_full_false`, `C77_skip_uncounted`, `C77_skip_full_false`, `C77_available_partial`, `C77_available_marker`, `C77_available_over`

**C78 Payload length between two file positions** — partial. `computeLength` against counting payload positions; uses the arithmetic of C40.
  *Note:* proved for positions other than 0 and outside markers; from 0 three bytes are missing (C78_from_zero, C78_full_false).
  `C78_length_partial`, `C78_from_zero`, `C78_full_false`

**C79 Java output buffer and deflate codec** — partial. Model/JavaStream. Invariant: arrays filled before the current one, the written part of the current one. The deflate library is what it produces plus an arbitrary portioning.
  *Note:* buffers of any size but 0, where array writes never return (C79_size_zero); the codec for complete input: decompress never returns on input that ends too early (C79_truncated_hangs, C79_full_false).
  `C79_buffer`, `C79_size_zero`, `C79_deflate_partial`, `C79_truncated_hangs`, `C79_full_false`

**C80 Java document writers make the Python file format** — partial. a simulation between the Java and the Python writer, with the header that the packer holds back as slack; reading through C42; splits by induction over the calls.
  *Note:* proved for files with at least one document: closed without one, the header stays in the packer and the file cannot be opened (C80_empty_lost, C80_full_false); splits in front of all blocks but the first (C80_first_block_fails).
  `C80_same_file_partial`, `C80_writes`, `C80_python_reads_partial`, `C80_empty_lost`, `C80_full_false`, `C80_splits_partial`, `C80_first_block_fails`

**C81 Java document reader reads what was written** — partial. the Java unpacker read against `pack` (Proof/JavaUnpack); invariant: rest of the open block and unopened blocks. Specification: a list of documents; for skipBlock, the open block and a list of blocks.
  *Note:* next, skip, skip(n), count, skipBlock and nextBlock each in full; after nextBlock, next and skip raise (C81_mixed_fails, C81_full_false); skip(n) then skipBlock leaves out another block than n times skip (C81_skip_differs); a reader given a codec function opens no file (C81_codecfn_fails).
  `C81_reads`, `C81_python_files`, `C81_codecs`, `C81_java_files`, `C81_skip_block`, `C81_streams_partial`, `C81_mixed_fails`, `C81_codecfn_fails`, `C81_full_false`, `C81_skip_differs`

**C82 Java nextBlock from several threads** — partial. Model/JavaThreads: threads with program counters over one reader, any interleaving. Invariant: every block read is in flight in one thread or in the list of unpacked blocks.
  *Note:* every block is taken from the file by exactly one thread (C82_reads), and one thread at a time gets all of them; but block is shared, so two threads can get the same block while another is lost (C82_block_lost) or get an empty one (C82_empty_given, C82_full_false).
  `C82_reads`, `C82_alone_partial`, `C82_block_lost`, `C82_empty_given`, `C82_full_false`

**C83 Java layers are lists of nodes** — partial. Model/JavaLayer. Specification: a list. Invariant: slots without empty ones are the list, ids are positions, `layer` fields are membership; a separate lemma says what the loop of `compact` does.
  *Note:* proved for calls where add and clear happen when no slot is empty, in particular for all additions before removals. Otherwise nodes are lost (C83_node_lost, C83_full_false), doubled, get ids outside the layer (C83_id_over), clear raises (C83_clear_raises); sort leaves ids (C83_sort_removal_lost); retainAll for collections without the node in slot 0, else C83_retain_false.
  `C83_sequence_partial`, `C83_nodespan`, `C83_sort`, `C83_retain_partial`, `C83_node_lost`, `C83_node_doubled_lost`, `C83_id_over`, `C83_clear_raises`, `C83_sort_removal_lost`, `C83_retain_false`, `C83_full_false`, `C83_build_partial`

**C84 Java texts are cut at their spans** — partial. Model/JavaText: Offset objects on a heap, shared between the table of the text and spans. Invariant JTInv; an induction over the sorted positions shows what `compile` does; another over the calls.
  *Note:* proved if every span given to a compile was made after the compile before or was given to that one too. Otherwise its border numbers are stale (C84_stale_lost, C84_full_false). The empty span at the end is refused, unlike in Python (C84_end_refused_over); borders inside surrogate pairs give parts that are no Unicode strings (C84_surrogates_split_lost).
  `C84_compile`, `C84_compile_any`, `C84_span`, `C84_sequence_partial`, `C84_stale_lost`, `C84_full_false`, `C84_end_refused_over`, `C84_python`, `C84_surrogates_split_lost`, `C84_set_text`, `C84_set_text_fails`

**C85 Java spans are their characters** — partial. Directly from the definitions; equality needs the invariant of C84, as Offsets are compared with their ids.
  *Note:* subSequence with a negative start reads before the span (C85_before_given); touching spans intersect, unlike in Python (C85_touching_differs); equal ends of spans that skipped a compile may be unequal (C85_equals_differs, C85_full_false).
  `C85_str`, `C85_charAt`, `C85_subSequence_partial`, `C85_before_given`, `C85_covers`, `C85_intersects_partial`, `C85_touching_differs`, `C85_compareTo`, `C85_equals_partial`, `C85_equals_differs`, `C85_full_false`

**C86 Editing Java documents** — partial. Model/JavaEdit: calls on a document with the spans made since it was last encoded. Invariant JDInv (JSound, order of the TreeMaps, full storage), kept by every call. `remove` and `validateSchema`: induction over layers and fields.
  *Note:* soundness, adding: proved, if spans are put into fields before the next encode; otherwise they are written wrongly (C86_stale_span_differs). Removing: the text or layer always stays (C86_remove_kept, C86_remove_full_false); what happens to the fields is in C86_remove_text_partial and C86_remove_text_refused. validateSchema does not look at node spans (C86_validate_full_false, C86_nodespan_fails).
  `C86_stale_span_differs`, `C86_nodespan_fails`, `C86_sound`, `C86_add_text`, `C86_insert`, `C86_remove_kept`, `C86_remove_full_false`, `C86_remove_text_partial`, `C86_remove_text_refused`, `C86_validate_partial`, `C86_validate_full_false`, `C86_add_layer`, `C86_remove_layer_partial`

**C87 Java to Python** — proved. Props/JavaCodecSpec: contents, and when a Python or a Java document has one. Proof/JavaWrite and JavaWire: the Java encoder writes a wire document with the content (`j_write`); Proof/PyRead: the Python decoder builds a document with the content of the wire document (`py_read`).
  *Note:* Good excludes types the format does not have (nil) and fields that are not declared; the latter are dropped silently (C87_undeclared_lost). A span border inside a surrogate pair (C87_surrogate_lost) and a NullValue in a span field (C87_null_span_fails) are no content. Values in extended fields: C101.
  `C87_java_to_python`, `C87_keeps`, `C87_surrogate_lost`, `C87_null_span_fails`, `C87_undeclared_lost`

**C88 Python to Java** — partial. Proof/PyWrite: the wire document of a valid Python document has its content (`py_write`); Proof/JavaRead and JavaBuild: the Java decoder reads it (`j_read`). Contents of a Python document are unique (`pyHas_unique`).
  *Note:* proved for contents that the Java decoder can read (JavaReadable; C88_readable gives it from conditions on the Python document). Refuted otherwise: bytes in fields and nested properties raise (C88_full_false), properties from 2^63 wrap (C88_large_property_wraps).
  `C88_content`, `C88_python_to_java_partial`, `C88_readable`, `C88_full_false`, `C88_large_property_wraps`

**C89 Java to Java** — partial. `j_write`, then `j_read`.
  *Note:* proved for contents that the Java decoder can read. Refuted otherwise: bytes in fields raise (C89_full_false), as do NullValue properties (C89_null_property_fails).
  `C89_java_to_java_partial`, `C89_full_false`, `C89_null_property_fails`

**C90 Documents passed between the libraries** — proved. Props/JavaAgain: bytes that come from others by passes (`Spec.Passed`). `j_read` gives soundness of the Java document (JRead), `py_read` freshness of the Python document (PyFresh), from which it is valid (`encodable_of`). Induction over the passes with: there is a wire document with the content, whose segments are not empty unless the text is (`Wrote`).
  *Note:* C90_passed, with C90_python_reads, C90_java_edits and C90_java_edits_java for single passes. The content must be one the Java decoder can read (JavaReadable, see C88). The Java decoder doubles the Offset of an empty text; this is harmless (C84_compile_any).
  `C90_python_reads`, `C90_java_edits`, `C90_java_edits_java`, `C90_passed`

**C91 GroupBySpan (Java) groups exactly the intersecting nodes** — proved. Props/JavaGroup: the points are those of the Python library with other codes (`rn` maps them, in order), and the sweep keeps the Python state with every list filtered by what is kept (`keptG`, `step_sim`), so that the invariant of C52 (`GInv.step`) gives the lists. Builders: TreeMaps with the same entries are equal (`inOrder_ext`).
  *Note:* C91_group_by_span, C91_calls, C91_layers. Findings: C91_builder_ignores_field (builder(nodes, field) groups by "text"), C91_duplicate (a group node given twice).
  `C91_group_by_span`, `C91_calls`, `C91_layers`, `C91_builder_ignores_field`, `C91_duplicate`

**C92 DominantRight (Java) returns a conflict free selection** — partial. Props/JavaDominant: as C53, with the points done in a list, and the open segment either not ended or ended and not selected (`jdomLoop_correct`). Nested: an open segment is the longest of those not ended, so that nothing is left when it ends (`jdomLoop_nested`).
  *Note:* False as stated: C92_full_false, a segment that overlaps nothing is lost, because the end of an earlier unselected segment opens that one again. C92_dominant_right_partial (also for nodes and node spans) adds that reason: a longer segment ended before and was not selected; C92_nested_partial: the selection of Python if overlapping segments are nested. C92_unset: a node without the field is NullPointerException.
  `C92_dominant_right_partial`, `C92_nested_partial`, `C92_full_false`, `C92_nodes_partial`, `C92_nodespans_partial`, `C92_unset`

**C93 The compartments of MsgpackDocument (Java) make up the file** — partial. Props/JavaMdoc: a file of either encoder is cut into parts that the readers of C88 and C89 read one by one (`CutAs`, `wrote_cut`); the positions are the sums of the lengths (`determine_cut`); what the decoder reads is compared with `decode_heads`, which holds of all files.
  *Note:* False as stated: C93_full_false, the compartment for layers is that of the first layer only. C93_compartments_partial for documents with layers: all of it, with the rest of the file, which is empty iff there is one layer. C93_no_layers: without layers the first call of each getter fails, the next calls do not. C93_rebuilt_unreadable: the constructor with four compartments leaves out the header. C93_error_once: a fault of the file is reported once only.
  `C93_header`, `C93_compartments_partial`, `C93_no_layers`, `C93_rebuilt_unreadable`, `C93_error_once`, `C93_full_false`

**C94 DocumentWritable (Java, Hadoop) carries its document** — partial. Props/JavaHadoop: the invariant `Spec.Carries` over the two forms, kept by every call (`call_holds`), from the results of C87, C89 and C90; the stream is a length and a file, read by `readBlob_ok`.
  *Note:* False as stated: C94_full_false, changes of a document whose file is known are not written (C94_edit_lost, in general). C94_edit_partial: changes of a document that was set, before its file is made, are. The rest is proved: C94_transport, C94_sequence, C94_get_document, C94_get_blob, C94_calls.
  `C94_transport`, `C94_sequence`, `C94_set`, `C94_get_document`, `C94_get_blob`, `C94_calls`, `C94_edit_partial`, `C94_edit_lost`, `C94_full_false`

**C95 What DocriaOutputFormat writes, DocriaInputFormat reads (Java, Hadoop)** — partial. Props/JavaHadoop: the writer is the writer of C80 (`writeAll_run`), the record reader is the reader of C81 asked for one document at a time (`calls_records`); that a cut header cannot be opened follows from the locality of the reader (`open_more`).
  *Note:* False for a task that writes nothing: C95_full_false and C95_nothing_lost. C95_round_trip_partial and C95_contents_partial for one document and more, C95_writes that writing succeeds.
  `C95_round_trip_partial`, `C95_writes`, `C95_contents_partial`, `C95_nothing_lost`, `C95_full_false`, `C95_close`

**C96 Nodes made with the validating builder (Java) are of the schema, and are read back** — partial. Props/JavaNode: the invariant `JBInv` (sound, typed) kept by every call (`jb_op`, `jb_run`); a typed document has a content that both libraries can read (C96_content, C96_valid), and C85, C87 and C88 give the reading.
  *Note:* False as stated: C96_full_false; a list of nodes of two layers and a NodeSpan over two layers pass the builder (C96_list_fails, C96_span_fails). C96_builder_partial, C96_python_reads_partial, C96_java_reads_partial if the nodes given for one field are of one layer. C96_put is the acceptance of a value. C96_python_reads_partial is for documents that declare no extended field (see C101).
  `C96_valid`, `C96_content`, `C96_put`, `C96_builder_partial`, `C96_python_reads_partial`, `C96_java_reads_partial`, `C96_list_fails`, `C96_span_fails`, `C96_full_false`

**C97 Reading and converting values (Java)** — partial. Model/JavaValue with doubles as bits; Proof/JavaDouble counts a double in parts of 2^-1074 and shows that rounding takes the nearest; parsing by induction over the digits against `Spec.Decimal`; Base64 against a decoder.
  *Note:* False as stated: DoubleValue.boolValue is true near zero (C97_double_fails, C97_double_bool) and DoubleValue.stringValue is null (C97_full_false). C97_bool_partial for the other values. The rest is proved: C97_put_get, C97_missing, C97_same, C97_parse, C97_parse_span, C97_print, C97_widen, C97_exact, C97_nearest, C97_narrow, C97_truncate, C97_base64, C97_bool_string, C97_nodespan_string, C97_nodespan_nodes (layers without gaps).
  `C97_missing`, `C97_put_get`, `C97_same`, `C97_parse`, `C97_parse_span`, `C97_print`, `C97_widen`, `C97_exact`, `C97_nearest`, `C97_narrow`, `C97_truncate`, `C97_base64`, `C97_bool_string`, `C97_nodespan_string`, `C97_nodespan_nodes`, `C97_bool_partial`, `C97_double_bool`, `C97_double_fails`, `C97_full_false`, `C97_nodespan_value`

**C98 Nodes that are objects of a class (Java)** — partial. Model/JavaConcrete with the class as any state with getters and setters; refinement `Spec.ObjHolds` between the object and a map, kept by setData, put and remove; induction over the puts and over the setters.
  *Note:* False as stated (C98_full_false; C98_node_false: for every class with a field): has is always true for a field of the class, remove leaves it, the default is always taken (C98_has, C98_remove, C98_default); a missing reference reads as the first node or fails (C98_reference_invented, C98_reference_missing, C98_reference_refused). C98_node_partial and C98_forEach_partial are what holds; C98_plain: all of it for a class without fields.
  `C98_put`, `C98_puts`, `C98_setData`, `C98_get`, `C98_has`, `C98_remove`, `C98_default`, `C98_forEach_partial`, `C98_node_partial`, `C98_addField`, `C98_plain`, `C98_node_false`, `C98_reference_refused`, `C98_reference_read`, `C98_reference_invented`, `C98_reference_missing`, `C98_reference_plain`, `C98_full_false`

**C99 Equality and hash codes (Java)** — partial. Model/JavaEquals with objects as terms and fields in a heap; a relation `Alike` that `equals` decides, shown to be an equivalence that hash codes respect; maps of arguments by induction with removal of a key; hash maps by induction over the puts.
  *Note:* False as stated (C99_full_false): two nodes of a layer can be equal (C99_nodes_over, C99_again_over), arrays and spans of nodes and extension values are equal only to themselves (C99_arrays_differ), spans that cover the same can differ (C99_spans_differ, C85_equals_differs), and compaction and compile change hash codes so that maps lose their keys (C99_moved_lost, C99_compiled_lost); removed nodes have no hash code (C99_removed_fails). The contract itself holds (C99_refl, C99_symm, C99_trans, C99_hash).
  `C99_refl`, `C99_symm`, `C99_trans`, `C99_hash`, `C99_values`, `C99_types`, `C99_texts`, `C99_spans_partial`, `C99_spans_cover`, `C99_nodes_partial`, `C99_sequence_partial`, `C99_layers`, `C99_answers`, `C99_hash_fails`, `C99_map_partial`, `C99_add_partial`, `C99_span_partial`, `C99_moved_lost`, `C99_compact_lost`, `C99_compiled_lost`, `C99_nodes_over`, `C99_again_over`, `C99_arrays_differ`, `C99_spans_differ`, `C99_removed_fails`, `C99_full_false`, `C99_hash_codes`

**C100 Schemas, types and their builders (Java)** — partial. Model/JavaSchema: objects are numbers, a builder is its map, and built objects name the builder whose map they have. Nothing changes whose map an object has (`SchKeeps`), and a call changes the map of one builder; both by cases over the calls and induction over sequences. An invariant keeps all references in range, maps in order, and names the keys they are under.
  *Note:* False as stated (C100_full_false): `build()` hands over the map of the builder, and documents share the Schema.Layers of the Schema they are made from, so everything from one builder has the same fields at all times (C100_shared, C100_late_fails, C100_argument_fails); removing a field in one document leaves the values in the others (C100_values_left); `Document.add(Layer)` does not tell the Schema (C100_schema_fails). What comes from different builders is independent (C100_apart_partial), and the Schema is right if only Schema.Layers are added (C100_schema_partial).
  `C100_shared`, `C100_refused`, `C100_built`, `C100_built_type`, `C100_apart_partial`, `C100_fields`, `C100_document`, `C100_schema_partial`, `C100_schemas`, `C100_copy`, `C100_add`, `C100_add_layer`, `C100_schema_fails`, `C100_remove_field_partial`, `C100_values_left`, `C100_late_fails`, `C100_argument_fails`, `C100_full_false`

**C101 Extended values and documents inside documents** — partial. Model/Nested: the decoder of Model/Codec takes a function that decodes bytes in fields; it is tied by recursion on the length of the bytes (`decodeDeep_eq`), since bytes in columns are shorter than the file. What the decoder meets in extended columns is what the content has there (`extCells_iff`). Induction over how the file was written.
  *Note:* False as stated (C101_full_false): a value of any extended type other than "doc" makes Python's decoder fail with AttributeError (C101_other_types_fail), as it asks the bytes for an attribute `data`. A file is read if and only if all extended values are of type "doc" and can be read themselves (C101_readable_partial), then with all content (C101_nested). Python cannot write a document with an extended field again (C101_not_written_back). In Java values keep type and bytes (C101_java_keeps) if they were of the type of the field; otherwise they change to it (C101_java_type).
  `C101_nested`, `C101_readable_partial`, `C101_other_types_fail`, `C101_same`, `C101_java_keeps`, `C101_not_written_back`, `C101_full_false`, `C101_java_type`

**C102 Values that are not of the declared type, when encoding** — partial. Case distinction over what the encoders do with each pair of type and value (`cell_becomes`), then a frame lemma: the data written depends on the fields of the nodes only through what is written for each of them (`toWire_with`). Floats through the theory of rounding of Proof/JavaDouble; text by induction over its digits.
  *Note:* False as stated (C102_full_false): decoded documents have types that check nothing, so 3.7 in a field of 32-bit integers is written as 3, and a Node in a field of NodeSpans as the span between its neighbours (C102_decoded_converts). Encoding does exactly what it would do with the converted value in place (C102_same); whenever it works, all values are of the declared type or convertible (C102_converted), and what is written is of the kind of the column (C102_columns). With types that check, and validation, values of other types are refused, apart from bools for integers (C102_refused_partial).
  `C102_same`, `C102_converted`, `C102_columns`, `C102_int_text`, `C102_refused_partial`, `C102_decoded_converts`, `C102_full_false`

**C103 Loops over a layer that change the layer** — partial. Induction over the rounds, with the invariant that what the iterator has yet to give are the nodes behind its position in the list of the layer (`loop_remove`); clearing the place just passed leaves them as they are, compaction leaves a suffix of them. For the generator, the loop is shown equal to the loop of `remove` over the list (`loop_core`).
  *Note:* False as stated (C103_full_false): removing all of 20 nodes in a loop leaves six, since the layer is compacted after six removals and the loop skips six nodes. What holds for every layer is C103_remove; C103_remove_partial gives the stated result where the layer is not compacted. Filtering iterators never give None (C103_gaps_hidden), but a loop over a layer without gaps can (C103_none_given).
  `C103_remove`, `C103_remove_partial`, `C103_generator`, `C103_gaps_hidden`, `C103_set_fields`, `C103_add_forever`, `C103_none_given`, `C103_full_false`

**C104 A document cut short is refused** — proved. Every reader is shown, by composition, to do the same when given more data, unless it raised an exception for the end of the data (`Grows`, Proof/Cut); so a reader that consumes all of `bs` cannot succeed on less (`Grows.cut`). For MsgpackDocument the same is shown call by call with its places in the data (Proof/CutMDoc), and that the last layer ends where the data end. For the listing, `Prints` composes lines and bytes (Proof/Debug).
  *Note:* The Java half is for documents that the Java decoder can read (as C88, C89) and of less than 2 GiB.
  `C104_more`, `C104_more_refused`, `C104_java_more`, `C104_cut`, `C104_cut_from_java`, `C104_java_cut`, `C104_java_cut_from_python`, `C104_lazy_more`, `C104_lazy_cut`, `C104_debug`, `C104_debug_cut`, `C104_debug_no_check`

**C105 Java: loops over a layer that change the layer** — partial. A loop knows its ArrayList (`Watch`): the layer's `storage`, or the list it was before `compact()` made a new one. What is still to come only loses nodes with each call that takes nodes away (`watch_op`); after `compact()` it is the nodes to come without as many as there are empty slots before the loop's place (`packed_ahead`). For loops that remove the node at hand this gives exactly the nodes that the loop comes to (`rounds_drop`, `Spec.loopSees`); after the list was given up nothing is skipped any more (`rounds_frozen`).
  *Note:* A loop that removes nodes from a layer of more than 16 slots skips nodes (C105_remove_every_false, C105_remove_all_false, C105_full_false); proved what it does exactly, and when it removes all.
  `C105_sound_partial`, `C105_read`, `C105_ends`, `C105_once`, `C105_raise`, `C105_twice`, `C105_remove`, `C105_remove_partial`, `C105_remove_every_false`, `C105_remove_all_false`, `C105_remove_all_partial`, `C105_copy`, `C105_add`, `C105_clear`, `C105_removeIf`, `C105_full_false`, `C105_removed_node_seen`

**C106 Document files by name: closing, with, exceptions, crashes** — partial. The writer on an open file does what the writer of C42 does (`Sim`: the bytes on the disk and in the buffer are the payload of its log), up to the first close() that succeeds; afterwards no call changes the file (`run_closed`). So the closed file is the one of C42, and what is on the disk before is a beginning of it: `prefix_reads`, `header_cut`. The body of a `with` statement is a sequence of calls (`made_run`). Appending puts another header after the blocks, which the reader takes for a block (`nexts_tail`).
  *Note:* Documents written after close() are lost and those of a failing compression are kept (C106_late_write_false, C106_failed_write_false), flush() does not reach the disk (C106_buffered, C106_flush_false); the rest is proved, for sessions whose compressions succeed and that write nothing after close().
  `C106_closed`, `C106_keeps_partial`, `C106_with_partial`, `C106_frozen`, `C106_close_twice`, `C106_late_write`, `C106_crash`, `C106_buffered`, `C106_missing`, `C106_exclusive`, `C106_others`, `C106_append`, `C106_late_write_false`, `C106_failed_write_false`, `C106_flush_false`, `C106_failed_open`

**C107 Block files cut short, read with the Java library** — partial. The unpacker is local (`jloc_Bin`, `jloc_Int`, `jloc_SkipOf`; `Loc` as in C30), so it runs out of data on a part of what it reads whole (`Loc.short`). A reader of the cut file is a reader of the whole blocks before the cut with a stump at the end (`cut_open`); each call on it does what it does without the stump, unless that comes to the end, when it raises (`nextRaw_plus`, `skip_plus`, `skips_plus`, `consume_plus`). What the calls do without the stump is C81.
  *Note:* skip(n) for exactly the documents before the cut raises (C107_skip_fails, C107_full_false); the rest is proved. Nothing is said of a reader after it has raised.
  `C107_header`, `C107_reads_partial`, `C107_skip_block`, `C107_streams`, `C107_python_files`, `C107_java_files`, `C107_skip_fails`, `C107_full_false`

**C108 The text of the XML export is XML and reads back as its tree** — partial. `ElementTree.write` is modelled after CPython 3.12, with a switch for the escaping before 3.9. The specification is a reader of XML text after the W3C recommendations (`Spec.XmlText.read`: names, attributes, references, line ends, namespaces). The chain of `replace` calls is shown to be an escaping of single characters (`escAttr_eq`), which the reader undoes (`rValue_escaped`); tags and elements by induction on the tree (`rAttrs_text`, `rElement_ser`), then namespaces (`expand_raw`). What the reader can return at all is `read_proper`, which gives the other direction. That the tree of an export is one that XML can have follows the export function by function (`xmlTree_fit`).
  *Note:* documents with names or characters that XML does not allow (C108_name_fails, C108_colon_fails, C108_xmlns_fails, C108_brace_fails, C108_inject_fails, C108_char_fails, C108_full_false); all others are proved, and for trees without names in braces the condition is shown to be necessary (C108_write_iff).
  `C108_write`, `C108_write_iff`, `C108_write_inj`, `C108_read`, `C108_text_partial`, `C108_name_fails`, `C108_colon_fails`, `C108_xmlns_fails`, `C108_brace_fails`, `C108_inject_fails`, `C108_char_fails`, `C108_crlf_fails`, `C108_full_false`

**C109 Java writer of block files on a stream that raises** — partial. Model/JavaSession: the stream is a list of what becomes of each call on it (it works, or raises after k bytes); the MessagePacker of msgpack-core with its buffer. `Adds`: a call adds these bytes in order, and if it raises, some beginning of them has arrived. Invariant `JGood`: blocks written, documents collected; it is kept by every call that returns, and a call that raises leaves a beginning of the file (`call_did`). What readers make of it is C81, C107 and the Python side of C106 (`cut_read`).
  *Note:* sessions that go on after an exception of the stream (C109_retry_false, C109_mixture_false, C109_failed_block, C109_full_false), documents after close() (C109_late_write_false), sessions without a document (C80_empty_lost). Proved: all sessions up to and including the first exception of the stream.
  `C109_closed_partial`, `C109_lag`, `C109_first_exception`, `C109_failed_open`, `C109_failed_block`, `C109_frozen`, `C109_close_twice`, `C109_late_write_false`, `C109_retry_false`, `C109_mixture_false`, `C109_full_false`

**C110 Python writer of block files on a file object that raises or writes less than it is given** — partial. Model/PySession: the file object is a list of what becomes of each call on it (it works, it writes k bytes and returns, it raises after k bytes). Invariant `PGood`: blocks written, documents collected. Every call that returns keeps it, one that raises leaves a beginning of the file with all that was there before, and keeps it as well if the file object has written nothing (`pcall_did`). What a reader makes of the beginning of a file is the Python side of C106 (`pcut_read`).
  *Note:* file objects that write less than they are given (C110_short_lost, C110_short_false, C110_full_false), sessions that go on after an exception of a file object that has written a part (C110_retry_false), or go on with write only (C110_failed_block), documents after close() (C110_late_write_false). Proved: all sessions up to and including the first exception of the file object, and all sessions whatever on one that has written nothing when it raises.
  `C110_closed_partial`, `C110_all_or_nothing`, `C110_lag`, `C110_first_exception`, `C110_failed_open`, `C110_failed_block`, `C110_frozen`, `C110_close_twice`, `C110_late_write_false`, `C110_short_lost`, `C110_stays_open`, `C110_recovers`, `C110_retry_false`, `C110_short_false`, `C110_full_false`

**C111 Python reader of block files on a file object that returns less than it is asked for** — partial. Model/PyInput: the file object is what is left of the file and the most that each read returns; the unpacker has a buffer, which it fills when it runs out of data, and which is full at `max` bytes. What `next(unpacker)` does is given by the bytes before it, however divided (`pull_spec`, by induction on what is left, with the parser's locality `Loc.unpack`). Simulation `RSim` between this reader and the one on the whole file: each call has the same outcome, or raises BufferFull and is stuck (`Stuck`); `Easy` (nothing to come is too large) excludes the second. `Spec.Items` and `Spec.InBuffer` say what fits; files as written satisfy them, and so does every beginning of one (`inBuffer_written`, `items_prefix`).
  *Note:* file objects whose first read returns fewer than four bytes (C111_short_magic_false, C111_full_false), without a position (C111_no_tell_false), that return nothing although the file goes on (C111_empty_read_lost); blocks and documents larger than the buffer (C111_large_block_lost, C111_large_document_lost). Proved: all files, whatever is in them, on all other file objects, up to the first object that is too large.
  `C111_chunks`, `C111_small`, `C111_written_partial`, `C111_large_block_lost`, `C111_large_document_lost`, `C111_short_magic_false`, `C111_no_tell_false`, `C111_empty_read_lost`, `C111_full_false`

**C112 Python boundary writer on a file object that raises or writes short** — partial. Model/BoundarySession: the writer of Model/Boundary on the file object of Model/PySession. Refinement: forgetting the file object's plan gives the plain writer (`BFile.plainly`), and C38's invariant `WInv` is kept by each write to the file object, whether it raises or not, if nothing is written when it raises (`bwriteLoop_ok`, `brun_nothing`); `Spec.Arrives` says what the payload is. For the first exception: the file is between the plain writer's file before and after the call (`BDid`, `brun_did`), and stripping markers keeps beginnings (`strip_prefix`). `BFile.ahead` is an invariant of the calls on a file object that works.
  *Note:* file objects that raise after some bytes or write short (C112_part_false, C112_full_false; C112_position_lost: for good); C112_retry_false: a document writer on a boundary writer duplicates a beginning of the block that it writes again. Proved: all file objects that write nothing when they raise, and all that do not write short up to and including the first exception.
  `C112_nothing_partial`, `C112_first_exception`, `C112_position_lost`, `C112_part_false`, `C112_full_false`, `C112_retry_false`

**C113 Python boundary reader on a file object that returns less than it is asked for** — partial. Model/BoundaryInput: the reader of Model/Boundary, with what the file object returned as an argument (`BReader.use`; `read_use`: it is the reader of C41 when that is everything). A part that ends at a payload position is what the reader of C41 does on the file cut there (`use_slice`, with `use_raw`: the rest of the file does not matter); `Spec.Settled` says where the guess of the position is right (`settled_guess`); the invariant is C41's `Synced` (`bin_read`, `bin_reads`, by induction on the calls). For a part that ends in a marker the loop's count is computed for all ends (`copyLoop_any`) and differs from the expected length (`use_inside`).
  *Note:* parts that end before or within a marker (C113_marker_false, C113_full_false, C113_after_false) or shortly behind one (C113_behind_false). Proved: all other parts, all files of one segment, recovery by seek.
  `C113_reads_partial`, `C113_one_segment_partial`, `C113_seek_partial`, `C113_marker_false`, `C113_after_false`, `C113_behind_false`, `C113_full_false`

**C114 Python document reader on a boundary reader** — partial. Model/BoundaryDocs: the document reader of Model/PyInput with a boundary reader in the place of the file object. A simulation (`USim`, `DSim`) between it and the document reader on a file that is the payload: each read returns the same bytes (`insim_read`, from C41's invariant `Synced`), as the reads of the unpacker end at 4 + i * 2^20 in the payload, which are `Spec.Safe` (`unpacker_safe`); carried through the unpacker's loop by induction (`bpull_sim`), the constructor, blocks and `__next__` (`bdnew_sim`, `bnextLoop_sim`, `bdnexts_sim`). The documents then follow from C111.
  *Note:* files that end where the next marker would be (C114_open_false, C114_end_false, C114_full_false); boundaries above 20, files of more than 2^b / 4 segments or larger than the unpacker's buffer are not covered.
  `C114_payload_partial`, `C114_written_partial`, `C114_end_false`, `C114_open_false`, `C114_full_false`

## 6. Where the code violates what a user would expect

Found while proving; each has a proved witness unless marked (read).

Text and spans
* `span[a, b]` can leave the span or wrap around (`C03_pair_escapes`, `C03_pair_wraps`); `span[i]` out of range gives
  characters outside the span (`C04_out_of_range_leaks`).
* `trim()` leaves trailing whitespace when there was leading whitespace (`C06_both_ends`).
* Spans of different texts with equal bounds are equal but hash differently (`C08_eq_hash_mismatch`).

Layers
* `add(*nodes)` does not check that the node is unbound, so a node can sit in two layers (`C10_add_bound_breaks`).
* `retain` on a layer with gaps raises AttributeError and corrupts indices (`C16_retain_fails_on_gaps`); a ValueError
  partway leaves marks behind (`C10_failed_retain_breaks`).
* `layer[i]` is None for the slot of a removed node (`C12_gap_is_visible`); a removed node keeps its index.
* `add_many` is not undone when validation fails (`C21_refused_batch_stays`), a generator escapes validation
  (`C21_generator_not_validated`).
* `add_field` of an existing field raises TypeError instead of SchemaValidationError (`C22_declared_refused`).
* `float64()` has the int default 0, which its own validation rejects: `layer.add()` fails
  (`C20_float_default_rejected`). `float64(default=x)` ignores x (read).
* `string("x")` and `bool()` give an unchecked base type (`C23_string_with_default_unchecked`,
  `C23_bool_with_default_unchecked`); types of decoded documents are base types too, so validation is lost.
* `typeof(True)` is int64; a NodeList of mixed numeric types loses the merged type (`C24_nodelist_type_lost`).
* `remove_layer` ignores node span references, its cascade does not remove fields, it returns None
  (`C25_nodespan_reference_ignored`, `C25_cascade_leaves_field`).

Encoding
* Compilation compares layers and texts by name only, so references into removed or replaced layers and texts are
  silently redirected (`C37_*_redirects`).
* Ext fields cannot be encoded at all: KeyError (read; `Spec.Encodable` excludes them).
* JSON cannot encode documents with a BINARY value: TypeError (`C66_bytes_refused`). A column of type ext cannot be read
  back from JSON either: `standard_b64decode` gets the whole column (codec.py:289).
* None in a span field makes compile raise AttributeError (read).
* Options named `self` or `typename` make decoding raise TypeError (`C64_option_typename_raises`).
* `texts(*names)` of a lazy document is always empty, `document(*layers)` raises KeyError unless all layers are named
  (`C35_texts_always_empty`, `C35_some_layers_raise`). Unpickling loses `ref` (`C36_reference_lost`).
* XML: binary and ext values raise ValueError, `verbose_node_spans` raises TypeError, characters beyond U+FFFF are
  replaced, a field named like `xml:id` is overwritten, texts and properties are not cleaned (`C62_astral_fails`,
  `C63_*_fails`).

Files
* `_BoundaryReader.read` is wrong for reads that end at a segment end or start near the start of a later segment
  (`C41_fails_at_end`, `C41_fails_inside`); `tell` is off by 4 right at a marker (`C40_tell_before_marker`).
* Calling `readblock()` between `next()` calls gives wrong references (`C43_interleaved_blocks_fail`). After a failed
  automatic flush the writer never flushes by itself again (`C46_failed_flush_grows`).
* `DocumentIndex.add` makes the path relative to the base path, `search` opens it relative to the working directory
  (`C45_other_directory_fails`).

Algorithms, queries, presentation
* `children_of` with several properties looks the second one up on the last child (`C51_shadow_fails`).
  `dfs_leaves` yields inner nodes of cyclic or shared graphs (`C50_cycle_fails`, `C50_sharing_fails`).
* `group_by_span` raises KeyError when a node is given twice (`C52_duplicate_fails`). `span_translate` keeps an empty
  mapping interval active (`C54_empty_interval_fails`). A negative start is wrong in `sequence_to_textspans`
  (`C55_negative_start_fails`).
* `is_any("text")` never matches a span although `== "text"` does (`C56_is_any_text_fails`); `update()` of a query on
  a query reads the inner query's stored nodes (`C57_stale_inner_fails`); `has_value` relies on the truth value of
  NotImplemented, a TypeError from Python 3.14 on (read).
* `max_columns` returns `max_rows` (`C58_max_columns_getter_fails`); truncation with `max_display_width = None` raises
  TypeError (`C58_no_display_fails`); a width of 6.5 makes truncation lengthen text (`C58_fraction_fails`); every
  block of a wrapped table but the last exceeds the display (`C60_too_wide_fails`); the name of a text and row indices
  are not escaped in HTML (`C61_text_name_fails`, `C61_index_fails`); `urn:wikipedia:x` raises IndexError
  (`C61_wikipedia_fails`).

Java library
* `BoundaryWriter.write(int)` loses the last byte before a marker (`C76_byte_lost`).
* `BoundaryReader.read(byte[],int,int)` never returns at the end of a file that ends exactly where a marker would begin,
  when the underlying stream answers 0 to an empty read there, as file streams do (`C77_hangs`); `skip` reports bytes it
  did not count (`C77_skip_uncounted`); `available` promises bytes that are markers (`C77_available_over`).
* `computeLength` is three short when it starts at 0 (`C78_from_zero`).
* A `ByteOutputBuffer` of size 0 loops for ever on an array (`C79_size_zero`); `DeflateCodec.decompress` loops for ever on
  input that ends too early (`C79_truncated_hangs`).
* A `DocumentStreamWriter` closed without documents loses its header (`C80_empty_lost`); the boundary writer makes no split
  between header and first block (`C80_first_block_fails`).
* After `nextBlock`, `next` and `skip` raise at the end of the block (`C81_mixed_fails`); `skip(n)` opens the next block
  when it ends at a block's end, so that a following `skipBlock` leaves out another one (`C81_skip_differs`); a reader
  given its own codec function opens no file (`C81_codecfn_fails`).
* `nextBlock` is documented as safe for concurrent use, but `block` is a field that is assigned outside the lock: two threads
  can get the same block while another one is lost (`C82_block_lost`), or get an empty one (`C82_empty_given`).
* `Layer.add` after a removal writes to slot `size`, not to an empty slot or the end: it overwrites a node (`C83_node_lost`) or
  gives an id that is not the slot (`C83_id_over`); `clear` after a removal is a NullPointerException
  (`C83_clear_raises`); `sort` does not renumber, so a following `remove` removes another node (`C83_sort_removal_lost`);
  `retainAll` negates ids to mark nodes, which does not mark id 0 and unmarks a node given twice (`C83_retain_false`).
* A Java Span that is not used in one compile of its Text loses its Offsets in the table; if it is used again, it is written with
  stale border numbers (`C84_stale_lost`), and it is not equal to a new span with the same ends (`C85_equals_differs`).
* `Text.span` refuses the empty span at the end of the text, and any span of an empty text, which Python accepts
  (`C84_end_refused_over`); offsets are UTF-16 units, so a border inside a surrogate pair splits a character
  (`C84_surrogates_split_lost`).
* `Span.subSequence` with a negative start reads before the span (`C85_before_given`); `intersects` counts touching spans
  (`C85_touching_differs`).
* Java `Document.remove(Text)` and `remove(Layer)` never remove the text or the layer (`C86_remove_kept`); `remove(Layer)` looks for
  layers with *spans* of a text with the layer's name.
* Java `validateSchema` does not check fields of node spans; such a document is written and cannot be read by either library
  (`C86_nodespan_fails`).
* A Java Span made before an encode in which it was not used and put into a field later is written as another span
  (`C86_stale_span_differs`).
* The Java decoder cannot read bytes in fields, not even those the Java encoder wrote (`C88_full_false`, `C89_full_false`), nor
  properties that are null, lists or dicts (`C89_null_property_fails`); integers from 2^63 wrap (`C88_large_property_wraps`).
* Java: a span border inside a surrogate pair destroys the character when the document is written (`C87_surrogate_lost`); a
  NullValue in a span field makes `compile` raise NullPointerException (`C87_null_span_fails`); values of fields that the schema does
  not declare are dropped silently (`C87_undeclared_lost`).
* `DominantRight.resolve` (Java): with no open segment the loop opens the segment of any point, also of one that ends (DominantRight.java:88-90). After [0,10) is selected, the end of [5,12) opens [5,12) for ever, and shorter segments after it, such as [15,17), are lost (C92_full_false).
* `GroupBySpan.builder(List<Node>, String)` (Java) ignores the field and groups by "text" (GroupBySpan.java:33-35; C91_builder_ignores_field).
* `MsgpackDocument.determineCompartments` (Java) reads one layer only: `layersCompartment()` of a file with more layers has the first one, of a file without layers every getter fails once with MessageInsufficientBufferException and then, because `positions` is set already, answers from the positions found so far (MsgpackDocument.java:74-111; C93_full_false, C93_no_layers, C93_error_once).
* `new MsgpackDocument(properties, schema, texts, layers)` (Java) does not write the header `DM_1`, so `document()` always fails (MsgpackDocument.java:40-52; C93_rebuilt_unreadable).
* `DocumentWritable.getDocument` (Java, Hadoop) keeps the file it decoded: a mapper that changes the document and writes the same writable writes the old file, without an error (DocumentWritable.java:27-32, 43-53; C94_full_false, C94_edit_lost). `setDocument` must be called again.
* A task that writes no record with DocriaOutputFormat leaves a file that is empty or ends inside the header, because the packer is not flushed without a block; the next job fails to open it (DocriaOutputFormat.java:17-26, DocumentStreamWriter.java:116-134; C95_nothing_lost).
* `Node.Builder` (Java) looks only at the type of a value, and the type of a `List<Node>` is that of its first node, the type of a NodeSpan that of its left node: a list of nodes of two layers, or a NodeSpan from one layer to another, is accepted, encoded without complaint, and the file cannot be read by either library, or other nodes are read (Node.java:31-109, NodeSpan.java:16-34, NodeArrayValue.java:45-48; C96_list_fails, C96_span_fails, C96_full_false). An array of nodes is checked.
* `DoubleValue.boolValue` (Java) is inverted: 0.0 is true, 1.0 is false (DoubleValue.java:43-46; C97_double_fails). `DoubleValue.stringValue` is null, so `Node.getString` of a double is null (DoubleValue.java:38-41; C97_full_false).
* `LongValue.intValue` (Java) drops the upper 32 bits without an error (LongValue.java:46-49; C97_narrow), where a string with the same number is refused. A NodeSpan over nodes that hold "text" in a layer that does not declare it has no string but a NullPointerException (NodeSpan.java:46-48).
* `ConcreteNode` (Java) overrides neither `remove` nor `get(field, default)`: removing a field of the class does nothing and the default is returned even when the field is set (C98_remove, C98_default). `has` is true for fields that are not set (ConcreteNode.java:93-96; C98_has), so `Document.compile` and the encoder fail with a NullPointerException on them, and `resolveReferences` turns a missing reference into one to the first node when the field starts out as a NullValue (MsgpackCodec.java:791-796; C98_reference_invented). A setter that takes nodes fails when a document is read, since the decoder puts the id first (C98_reference_refused).
* Java nodes are equal by id and layer (Node.java:168-175), but ids are not unique: after a removal, `add` gives the next two nodes the same id (Layer.java:172), so they are equal and a hash map takes the one for the other (C99_nodes_over). Ids change when a layer is compacted and those of Offsets when a text is compiled, so hash sets and maps of nodes or spans lose their members (C99_moved_lost, C99_compiled_lost); a removed node throws a NullPointerException from `hashCode` (C99_removed_fails). NodeArrayValue, NodeSpan and ExtensionValue have no `equals` (C99_arrays_differ).
* `Document.remove(layer, true)` of the Java library leaves the layer and removes the fields for its nodes only from layers that have spans of a text of the same name (Document.java:186-194): C86_remove_layer_partial says exactly what it does.
* `Text.setText` of the Java library with a text too short for a span: the span cannot be read and the document cannot be encoded (C84_set_text_fails).
* In the Java library `LayerBuilder.build()` and `DataType.Builder.build()` hand their own map to what they build (Schema.java:97-99, DataType.java:81-83), so later `addField`/`addArg` calls change things already built (C100_late_fails, C100_argument_fails). `new Document(schema)` copies the Schema but shares its Schema.Layers (Schema.java:113-115, Document.java:34-38), so `Layer.addField` and `removeField` in one document change the schema and all documents made from it; there nodes keep values of the field that is gone (C100_values_left). `Document.add(Layer)` leaves the document's Schema without the layer (C100_schema_fails).
* Java writes values of extended fields as plain bytes. Python's reader for extended fields (codec.py:784-795) then asks these bytes for `data`: AttributeError for every value whose type is not "doc" (C101_other_types_fail). So Python cannot read such Java files at all, and cannot write the ones that it can read (C101_not_written_back, C71_ext_field_fails).
* Encoding converts instead of refusing wherever types are not checked (C102_decoded_converts): decoded documents lose the fraction of floats in integer fields, turn an integer n in a binary field into n zero bytes, and a Node in a NodeSpan field into the span from its left to its right neighbour (both happen to have the attributes that the encoder asks for).
* Removing nodes in a loop over the layer can skip nodes (C103_full_false): `for n in layer: layer.remove(n)` on 20 nodes leaves nodes 6 to 11, silently. `layer.remove(n for n in layer)` does not have this problem (C103_generator). A loop over a layer without gaps gets None for a node that was removed meanwhile (C103_none_given).
* `MsgpackCodec.debug` does not check the magic bytes (C104_debug_no_check), and ends with StopIteration on data cut short; `decode` of such data raises OutOfData or StopIteration, depending on where they end (C104_cut), so callers have to expect both, and in a generator a StopIteration would end the loop that reads documents or become a RuntimeError.
* Java: `for (Node n : layer) layer.remove(n)` and `layer.removeAll(layer)` leave n/4 + 1 of n > 16 nodes (C105_remove_every_false, C105_remove_all_false): `remove` compacts the list under the loop. Unlike in Python (C103) it happens once in a loop, because `compact` then leaves the loop with the old list; from then on the loop is given nodes that have been removed in the meantime (C105_removed_node_seen).
* Java: `layer.removeIf(p)` raises UnsupportedOperationException if there is anything to remove (C105_removeIf), because the iterator of a stream cannot remove.
* A document written after `close()` is lost without an error (C106_late_write, C106_late_write_false): `write` only fills the block, and nothing says that the file is closed until the block is full, or `flush`/`close` is called, which then raises ValueError for ever.
* `flush()` does not write to the disk as its documentation says (C106_buffered, C106_flush_false): the blocks stay in Python's file buffer.
* A constructor that raises leaves a file behind (C106_failed_open): in mode xb the next attempt fails with FileExistsError, in mode wb the old collection is gone.
* Mode ab makes a file that cannot be read beyond the old documents (C106_append).
* Java: `skip(n)` on a file that is cut inside of a block raises when exactly n documents are left before the cut, as it looks for the next block before it returns (C107_skip_fails); n calls of `skip()` succeed.
* XML: a field's name is written as the name of an attribute without a check. A field `first name`, `1st` or `ud:pos` gives text that is not XML (C108_name_fails, C108_colon_fails), a field `xmlns` loses its value (C108_xmlns_fails), `{a` raises ValueError (C108_brace_fails), a name with markup changes the tree (C108_inject_fails). A control character in a text gives text that is not XML (C108_char_fails). Before Python 3.9 CR LF in a text comes back as LF, so that the text no longer has the length that the export says (C108_crlf_fails).
* Java: when the output stream raises while a block is written, `flushblock` keeps the block, the packer keeps its bytes, and the count stays at the block size (DocumentStreamWriter.java:82-94). If flush() or close() then succeed, the block is in the file twice (C109_retry_false), or a reader yields a document that nobody wrote (C109_mixture_false); without them `write` takes every further document and writes none (C109_failed_block), as it compares the count with `==` (DocumentStreamWriter.java:103).
* Java: `write` after close() returns, unless it fills a block; the document is lost (C109_late_write_false).
* Python: `MsgpackDocumentWriter` takes a `RawIOBase` and ignores what its `write` returns (collection.py:445, 467-470, 518). A raw file may write less than it is given; the block is then lost without an exception (C110_short_lost), or a reader yields a document that nobody wrote (C110_short_false).
* Python: when the file object raises in the middle of a block, flush() and close() write the block again behind the part that is there (collection.py:517-524), and a reader yields a document that nobody wrote, or documents twice (C110_retry_false); without them `write` takes every further document and writes none (C110_failed_block), as it compares the count with `==` (collection.py:506).
* Python: a block or a document larger than the buffer of msgpack's Unpacker (100 MiB; 128 documents to a block by default) is written without complaint, and then neither it nor anything behind it can be read: every call of next() raises BufferFull (collection.py:198, 320 create the unpackers without `max_buffer_size`; C111_large_block_lost, C111_large_document_lost).
* Python: `MsgpackDocumentReader` takes a `RawIOBase`, but refuses a file if the first read returns fewer than four bytes (C111_short_magic_false), and calls `tell()` on it for a value that is not used (collection.py:331), so that pipes and sockets cannot be read (C111_no_tell_false); a read that returns nothing for now ends the iteration as if the file did (C111_empty_read_lost).
* Python: `_BoundaryWriter` does not look at what the file object's `write` returns (collection.py:164, 175), and does not count the bytes that were written before an exception, so that after either all its markers are in the wrong places for good (C112_part_false, C112_position_lost); with a file object that writes short no call raises.
* Python: `MsgpackDocumentWriter` on a `_BoundaryWriter`: if the file object raises between two segments of a block, even having written nothing then, `flush()` or `close()` called again writes the whole block behind the beginning that is there, and a reader yields a document that nobody wrote (C112_retry_false); on a plain file object nothing is lost in this case (C110).
* Python: `_BoundaryReader.read` computes with where the file object's read ended as if it were anywhere but at a marker (collection.py:86-115): if it ends right before a marker or within one, which is the rule for pipes that return multiples of 4096 bytes, AssertionError or ValueError is raised, the part read is lost, and the next reads return the marker as data (C113_marker_false, C113_after_false); if it ends less than 4 k bytes into segment k, k ≥ 2, bytes of the payload are lost or too many returned without any exception (C113_behind_false).
* Python: a boundary file whose length is a multiple of 2^b is written without complaint and cannot be opened as a document file: msgpack's unpacker asks for 1 MiB, the boundary reader comes to the end of the file before a marker, and raises (collection.py:86-115). Of all files of documents one in 2^b is lost in this way (C114_open_false, C114_end_false).

## 7. Wrong programs

`seeded/LOG.jsonl` lists the edits made to a scratch copy of the model, one per line: the definition edited, the edit,
the claim it breaks, the property theorems whose proof failed, and what was tightened when none did. An edit counts as
detected only if a theorem of a property it violates stops being provable by its proof; failing examples and failing
counterexample theorems do not count.


## 8. Axioms each theorem depends on

Printed by `collectAxioms`; `lean/Verif/Audit.lean` makes the build fail if a property theorem depends on anything
else. No theorem uses `sorryAx`, `Lean.ofReduceBool` or an axiom of this project.

* no axioms (3): `C05_overloads`, `C58_max_columns_getter_fails`, `C71_type`.
* `[propext]` (41): `C01_text_slice_step`, `C08_eq_hash_partial`, `C08_eq_meaning`, `C09_nodespan_unset`, `C51_refused`, `C51_several_partial`, `C51_single`, `C56_eq_float`, `C56_is_none`, `C56_short_circuit`, `C62_length`, `C67_column`, `C73_chain`, `C73_chain_raises`, `C73_query_field_partial`, `C73_query_of_query_fails`, `C77_available_over`, `C79_size_zero`, `C82_block_lost`, `C82_empty_given`, `C82_full_false`, `C83_clear_raises`, `C83_id_over`, `C83_node_doubled_lost`, `C83_retain_false`, `C84_full_false`, `C84_stale_lost`, `C84_surrogates_split_lost`, `C85_before_given`, `C85_equals_differs`, `C85_equals_partial`, `C85_full_false`, `C91_layers`, `C92_unset`, `C95_close`, `C97_nodespan_value`, `C98_default`, `C99_arrays_differ`, `C99_compact_lost`, `C99_layers`, `C99_removed_fails`.
* `[Quot.sound, propext]` (61): `C14_any_pair`, `C24_cast_up`, `C24_merge`, `C24_nodelist_partial`, `C24_nodelist_type_lost`, `C24_order_independent`, `C24_possible`, `C27_inverse`, `C30_packs`, `C40_increasing`, `C40_tell`, `C40_tell_before_marker`, `C42_register`, `C45_no_conditions`, `C45_unhashable`, `C50_cycle_fails`, `C50_sharing_fails`, `C56_eq`, `C56_is_any`, `C56_meaning`, `C56_selections`, `C57_collections`, `C57_snapshot`, `C57_update`, `C59_succeeds`, `C60_line_width`, `C60_once`, `C67_layer`, `C68_add_text`, `C68_contains`, `C69_add`, `C69_set`, `C71_ext_data`, `C71_ext_data_odd`, `C73_get_prop`, `C80_splits_partial`, `C80_writes`, `C82_alone_partial`, `C83_full_false`, `C83_node_lost`, `C83_nodespan`, `C83_sort`, `C83_sort_removal_lost`, `C84_end_refused_over`, `C84_set_text`, `C84_set_text_fails`, `C84_span`, `C85_str`, `C85_subSequence_partial`, `C86_add_layer`, `C86_add_text`, `C92_full_false`, `C97_nodespan_nodes`, `C97_put_get`, `C98_addField`, `C98_node_false`, `C98_remove`, `C98_setData`, `C99_add_partial`, `C99_hash_fails`, `C99_span_partial`.
* `[Classical.choice, Quot.sound, propext]`: all other property theorems (422).

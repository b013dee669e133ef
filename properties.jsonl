{"id": "C01", "title": "Text slicing is Python slicing", "statement": "For every text and every slice bounds a, b (absent, negative, or past the end), text[a:b] either returns a span whose string is exactly Python's str(text)[a:b] and whose offsets satisfy 0 <= start <= stop <= len(text), or raises DataValidationError; it raises exactly when the resolved stop lies before the resolved start.", "quantifier": "all texts, all optional integer slice bounds of either sign", "why_tests_cant": "Integer bounds of either sign and texts of any length form an unbounded domain; negative and out of range combinations are easy to miss.", "anchors": ["py/docria/model.py:Text.__getitem__", "py/docria/model.py:TextSpan.__str__"]}
{"id": "C02", "title": "Pair indexing is strict about bounds", "statement": "text[a, b] returns the span [a, b) exactly when 0 <= a <= b <= len(text), and raises DataValidationError for every other pair; no wrap-around and no clamping.", "quantifier": "all texts and all integer pairs", "why_tests_cant": "Unbounded integers; the claim is an if-and-only-if.", "anchors": ["py/docria/model.py:Text.__getitem__"]}
{"id": "C03", "title": "Sub-spans stay inside their span", "statement": "For a span of a text, span[a:b] (slice form) is a span contained in the parent whose string is Python's str(span)[a:b], or DataValidationError when the resolved bounds are reversed. The pair form span[a, b] is expected to stay inside as well.", "quantifier": "all texts, all spans in it, all slice bounds", "why_tests_cant": "Quantifies over nested slices with arbitrary bounds.", "anchors": ["py/docria/model.py:TextSpan.__getitem__"]}
{"id": "C04", "title": "Indexing a span by an integer", "statement": "span[i] is the i-th character of str(span) for -len(span) <= i < len(span), and an index outside that range is rejected like any Python sequence would.", "quantifier": "all texts, spans and integers", "why_tests_cant": "Boundary indices for every length, sign and position.", "anchors": ["py/docria/model.py:TextSpan.__getitem__"]}
{"id": "C05", "title": "covered_by and intersected_by are set inclusion and overlap", "statement": "For non-empty spans, a.covered_by(b) iff every character position of a is a position of b, and a.intersected_by(b) iff they share a position; intersected_by is symmetric; covered_by is a partial order on intervals; the span and the tuple overloads agree.", "quantifier": "all pairs of integer intervals", "why_tests_cant": "If-and-only-if over unbounded offsets.", "anchors": ["py/docria/model.py:TextSpan.covered_by", "py/docria/model.py:TextSpan.intersected_by", "py/docria/model.py:NodeFieldCollection.covered_by", "py/docria/model.py:NodeFieldCollection.intersected_by"]}
{"id": "C06", "title": "trim removes surrounding whitespace only", "statement": "trim()/trim_() on any span return a span inside the original, with the same non-whitespace content; the result starts and ends with a non-whitespace character, or is empty when the span is all whitespace.", "quantifier": "all texts, spans and whitespace predicates", "why_tests_cant": "Every whitespace layout on both ends at once.", "anchors": ["py/docria/model.py:TextSpan._trim_offsets", "py/docria/model.py:TextSpan.trim", "py/docria/model.py:TextSpan.trim_"]}
{"id": "C07", "title": "Compiled text segments lose nothing", "statement": "Cutting a text at any sorted list of offsets that starts at 0 and ends at len(text) gives segments that concatenate to the text, and accumulating segment lengths gives back exactly the offsets; hence a decoder recovers text and offsets.", "quantifier": "all texts and all sorted offset lists", "why_tests_cant": "Unbounded number of segments and offsets.", "anchors": ["py/docria/model.py:Text.compile", "py/docria/codec.py:MsgpackCodec.compute_text_offsets", "py/docria/codec.py:JsonCodec.decode_object"]}
{"id": "C08", "title": "Span equality is an equivalence compatible with hash", "statement": "Spans that compare equal have equal hashes, so they can be used as dict keys and set members.", "quantifier": "all pairs of spans, over the same or different texts", "why_tests_cant": "Universal law over pairs of objects; Python relies on it for every dict and set.", "anchors": ["py/docria/model.py:TextSpan.__eq__", "py/docria/model.py:TextSpan.__hash__"]}
{"id": "C09", "title": "Text between two spans", "statement": "For spans l, r of one text with l.start <= r.stop, l.text_to(r) is the text from l.start to r.stop, str(l.span_to(r)) is the same string and the span runs from l.start to r.stop; NodeSpan.text/textspan give that for its end nodes. A NodeSpan whose end nodes lack the field raises KeyError.", "quantifier": "all texts and span pairs", "why_tests_cant": "Unbounded offsets.", "anchors": ["py/docria/model.py:TextSpan.text_to", "py/docria/model.py:TextSpan.span_to", "py/docria/model.py:NodeSpan.text", "py/docria/model.py:NodeSpan.textspan"]}
{"id": "C10", "title": "A layer behaves as a plain list under any history", "statement": "After any sequence of add, add_many, remove, detach, retain, sort, compact, schema changes and compile/encode calls on any number of layers (raising calls included), in which add(*nodes) is only given distinct dangling nodes and no retain() raised, iterating a layer yields exactly the nodes that a plain Python list subjected to append, filter and stable sort would hold, in the same order; automatic compaction is invisible.", "quantifier": "all finite histories of operations over any number of layers and nodes", "why_tests_cant": "Compaction triggers depend on the whole history; tests sample a few.", "anchors": ["py/docria/model.py:NodeLayerCollection.add", "py/docria/model.py:NodeLayerCollection.add_many", "py/docria/model.py:NodeLayerCollection.remove", "py/docria/model.py:NodeLayerCollection.retain", "py/docria/model.py:NodeLayerCollection.sort", "py/docria/model.py:NodeLayerCollection.compact", "py/docria/model.py:NodeLayerCollection.__iter__"]}
{"id": "C11", "title": "len(layer) counts the nodes iterated", "statement": "In every state reachable through the API, len(layer) equals the number of nodes iteration yields.", "quantifier": "all states reachable from an empty document by any finite history of API calls in which add(*nodes) gets distinct dangling nodes and no retain() raised", "why_tests_cant": "A separately maintained counter must agree after every history.", "anchors": ["py/docria/model.py:NodeLayerCollection.__len__", "py/docria/model.py:NodeLayerCollection.__iter__"]}
{"id": "C12", "title": "Node indices address their node and follow iteration order", "statement": "In every reachable state, every node n iterated from a layer satisfies layer[n.i] is n, and indices strictly increase along iteration; layer[a:b] yields exactly the nodes whose index lies in the slice, in order.", "quantifier": "all states reachable from an empty document by any finite history of API calls in which add(*nodes) gets distinct dangling nodes and no retain() raised, all attached nodes", "why_tests_cant": "Index bookkeeping under deletion, compaction, retain and sort.", "anchors": ["py/docria/model.py:Node.i", "py/docria/model.py:NodeLayerCollection.__getitem__"]}
{"id": "C13", "title": "Neighbour navigation agrees with iteration order", "statement": "In every reachable state, node.left/node.right are the previous/next node of the iteration order (None at the ends), and layer.first()/layer.last() are its first/last node (None when empty).", "quantifier": "all states reachable from an empty document by any finite history of API calls in which add(*nodes) gets distinct dangling nodes and no retain() raised, all attached nodes", "why_tests_cant": "Gaps of any pattern and length may sit between neighbours.", "anchors": ["py/docria/model.py:NodeLayerCollection.left", "py/docria/model.py:NodeLayerCollection.right", "py/docria/model.py:NodeLayerCollection.first", "py/docria/model.py:NodeLayerCollection.last"]}
{"id": "C14", "title": "Node spans enumerate the nodes between their ends", "statement": "In every reachable state, a NodeSpan over attached nodes l, r of one layer yields exactly the contiguous stretch of the iteration order from l to r inclusive, also after other nodes were removed and the layer compacted; iter_span(a, b) gives the same irrespective of argument order. len() of a NodeSpan is the number of these nodes.", "quantifier": "all states reachable from an empty document by any finite history of API calls in which add(*nodes) gets distinct dangling nodes and no retain() raised, all pairs of attached nodes", "why_tests_cant": "Histories between creating the span and iterating it are unbounded.", "anchors": ["py/docria/model.py:NodeSpan.__iter__", "py/docria/model.py:Node.iter_span", "py/docria/model.py:NodeLayerCollection.iter_nodespan"]}
{"id": "C15", "title": "Compaction is invisible and makes indices dense", "statement": "compact() changes neither the nodes nor their order nor any node's fields; afterwards the i-th iterated node has index i, and compacting again changes nothing.", "quantifier": "all states reachable from an empty document by any finite history of API calls in which add(*nodes) gets distinct dangling nodes and no retain() raised", "why_tests_cant": "Any gap pattern.", "anchors": ["py/docria/model.py:NodeLayerCollection.compact"]}
{"id": "C16", "title": "retain keeps exactly the given nodes", "statement": "layer.retain(ns), for nodes of the layer with repetitions allowed, leaves exactly the nodes of ns in their previous order, detaches all others and reindexes; it works in every reachable state of the layer.", "quantifier": "all states reachable from an empty document by any finite history of API calls in which add(*nodes) gets distinct dangling nodes and no retain() raised, all lists of attached nodes", "why_tests_cant": "Sign-marking of indices under arbitrary gaps and duplicates.", "anchors": ["py/docria/model.py:NodeLayerCollection.retain"]}
{"id": "C17", "title": "Attachment status tells the truth", "statement": "In every reachable state, a node reports a layer as its own (n in layer, not n.is_dangling()) iff iterating that layer yields it; so a node is in at most one layer and removed nodes are dangling.", "quantifier": "all states reachable from an empty document by any finite history of API calls in which add(*nodes) gets distinct dangling nodes and no retain() raised and nodes", "why_tests_cant": "Must survive removal through every route: remove, retain, detach, del.", "anchors": ["py/docria/model.py:Node.is_dangling", "py/docria/model.py:NodeLayerCollection.__contains__", "py/docria/model.py:Node.detach"]}
{"id": "C18", "title": "sort is a stable sort that reindexes", "statement": "layer.sort(key) reorders the nodes into a permutation sorted by key that keeps the relative order of nodes with equal keys, with dense indices afterwards, whatever gaps existed.", "quantifier": "all states reachable from an empty document by any finite history of API calls in which add(*nodes) gets distinct dangling nodes and no retain() raised, all total preorder key functions", "why_tests_cant": "All permutations and key ties.", "anchors": ["py/docria/model.py:NodeLayerCollection.sort"]}
{"id": "C19", "title": "Removal bounds wasted slots", "statement": "After any remove call that returns, the layer either holds at most 16 slots or at least three quarters of its slots are live nodes.", "quantifier": "all states reachable from an empty document by any finite history of API calls in which add(*nodes) gets distinct dangling nodes and no retain() raised and removal batches", "why_tests_cant": "Batch sizes and prior gap patterns unbounded.", "anchors": ["py/docria/model.py:NodeLayerCollection.remove"]}
{"id": "C20", "title": "add(**fields) is validated, defaulted and atomic", "statement": "layer.add(**fields) either appends one node carrying the schema defaults overridden by the given fields, with every declared field valid, or raises and leaves the layer as it was; a node created from defaults alone is accepted.", "quantifier": "all schemas, all field assignments", "why_tests_cant": "All type/value combinations.", "anchors": ["py/docria/model.py:NodeLayerCollection.add", "py/docria/model.py:NodeLayerCollection.validate", "py/docria/model.py:DataTypes"]}
{"id": "C21", "title": "add_many appends all, validates and fills defaults", "statement": "layer.add_many(ns) on dangling nodes that validate appends them in order, gives each missing field its default and leaves given fields alone; bound nodes are refused; validation is not skipped.", "quantifier": "all lists of nodes, all schemas", "why_tests_cant": "Any number of nodes, fields and missing-field patterns.", "anchors": ["py/docria/model.py:NodeLayerCollection.add_many"]}
{"id": "C22", "title": "Adding and removing fields", "statement": "add_field makes the field declared and sets the default on every node of the layer; remove_field undeclares it and deletes its values from all nodes of the layer; remove_field after add_field on nodes without that field restores schema and nodes; adding a declared field is refused.", "quantifier": "all reachable states, all names and types", "why_tests_cant": "All layers states including gaps.", "anchors": ["py/docria/model.py:NodeLayerCollection.add_field", "py/docria/model.py:NodeLayerCollection.remove_field"]}
{"id": "C23", "title": "Field validation accepts exactly the declared domain", "statement": "int32/int64 fields accept exactly the integers in [-2^31, 2^31) and [-2^63, 2^63); string/binary fields accept values shorter than 2^31; span, node reference and node span fields accept exactly values bound to the declared context/layer.", "quantifier": "all values", "why_tests_cant": "Boundary values of 64 bit ranges and references in any state.", "anchors": ["py/docria/model.py:DataTypeInt32.is_valid", "py/docria/model.py:DataTypeInt64.is_valid", "py/docria/model.py:DataTypeNoderef.is_valid", "py/docria/model.py:DataTypeTextspan.is_valid", "py/docria/model.py:DataTypeNodespan.is_valid"]}
{"id": "C24", "title": "Numeric type merging is a join", "statement": "cast_up on numeric types picks the wider of the two in BOOL < I32 < I64 < F64; it is associative, commutative and idempotent up to type name, and merging a list in any order gives the same type name; NodeList built from mixed nodes exposes each common field with that type.", "quantifier": "all lists of numeric types in any order", "why_tests_cant": "Iteration order of a Python set is arbitrary, so the result must be order independent.", "anchors": ["py/docria/model.py:DataType.cast_up", "py/docria/model.py:DataType.cast_up_possible", "py/docria/model.py:NodeList.__init__"]}
{"id": "C25", "title": "A referenced layer cannot be removed silently", "statement": "remove_layer(name) without cascade raises when another layer has a field referring to it; with cascade the referring fields are removed; it returns True exactly when a layer was removed.", "quantifier": "all documents and layer names", "why_tests_cant": "Any schema graph.", "anchors": ["py/docria/model.py:Document.remove_layer"]}
{"id": "C26", "title": "Compiling rejects unresolved schema references and undeclared fields", "statement": "Encoding a document raises SchemaError exactly when a field type refers to a layer or text the document lacks; it raises when some node carries an undeclared field, and SchemaValidationError is raised only then.", "quantifier": "all reachable documents whose reference types name a target", "why_tests_cant": "Every schema graph and every node.", "anchors": ["py/docria/model.py:Document.compile"]}
{"id": "C27", "title": "The offset table is a strictly increasing bijection", "statement": "For each text, compile yields a strictly increasing offset list from 0 to len(text) containing every start and stop used by a span of that text, nothing else, and the map offset -> index is its inverse.", "quantifier": "all documents with spans inside their texts", "why_tests_cant": "Any number of spans in any order across layers.", "anchors": ["py/docria/model.py:Document.compile"]}
{"id": "C28", "title": "Encoding does not change the document", "statement": "compile/encode leaves every observable of the document unchanged: texts, schemas, nodes, order, field values, neighbours.", "quantifier": "all documents, also when encoding raises", "why_tests_cant": "Compilation reindexes and compacts nodes in place.", "anchors": ["py/docria/model.py:Document.compile", "py/docria/codec.py:Codec.encode"]}
{"id": "C29", "title": "Document encode/decode round trip", "statement": "Decoding what the codec produced for a valid document gives a document with the same properties, texts, layer names, schema type names and options, number and order of nodes, and for each declared field the same value: node references point to the node at the same place, spans to the same text and offsets; unset fields stay unset (empty reference lists become unset).", "quantifier": "all valid documents", "why_tests_cant": "Graph-shaped data of any size with forward, backward, cross-layer and cyclic references.", "anchors": ["py/docria/codec.py:Codec.encode", "py/docria/codec.py:Codec.commit_layers", "py/docria/codec.py:MsgpackCodec.decode_layer", "py/docria/codec.py:JsonCodec.decode_object"]}
{"id": "C30", "title": "The byte format of values is self delimiting and invertible", "statement": "Unpacking the bytes of a packed value followed by any other bytes returns that value and stops right after it; truncated bytes never unpack to a value.", "quantifier": "all values of any nesting, all suffixes, all cut points", "why_tests_cant": "Unbounded nesting and size classes at 2^4..2^32 boundaries.", "anchors": ["py/docria/codec.py:MsgpackCodec.encode", "py/docria/codec.py:MsgpackCodec.decode"]}
{"id": "C31", "title": "MessagePack bytes round trip", "statement": "MsgpackCodec.decode(MsgpackCodec.encode(doc)) is observably the same document, for every valid document.", "quantifier": "all valid documents", "why_tests_cant": "As C29, down to bytes.", "anchors": ["py/docria/codec.py:MsgpackCodec.encode", "py/docria/codec.py:MsgpackCodec.decode"]}
{"id": "C32", "title": "Re-encoding a decoded document is stable", "statement": "encode(decode(encode(doc))) == encode(doc) byte for byte, and encoding the same document twice gives the same bytes.", "quantifier": "all valid documents", "why_tests_cant": "Needed for deduplication and hashing of documents of any shape.", "anchors": ["py/docria/codec.py:MsgpackCodec.encode", "py/docria/codec.py:MsgpackCodec.decode"]}
{"id": "C33", "title": "Lazy access agrees with full decoding", "statement": "For every encoded document, MsgpackDocument's properties(), schema(), texts() and document() equal the corresponding parts of MsgpackCodec.decode, in any call order and repeated.", "quantifier": "all encoded documents, all call sequences", "why_tests_cant": "Depends on byte positions computed through nested length prefixes of any size.", "anchors": ["py/docria/codec.py:MsgpackDocument._parse_state", "py/docria/codec.py:MsgpackDocument.document", "py/docria/codec.py:MsgpackDocument.properties", "py/docria/codec.py:MsgpackDocument.texts"]}
{"id": "C34", "title": "Foreign data is refused", "statement": "Bytes not starting with the DM_1 magic are refused by MsgpackDocument and MsgpackCodec.decode, files not starting with Dmf1 by MsgpackDocumentReader. A block file that names an unknown codec or is marked as advanced is refused with NotImplementedError.", "quantifier": "all byte strings", "why_tests_cant": "All inputs.", "anchors": ["py/docria/codec.py:MsgpackDocument.__init__", "py/docria/codec.py:MsgpackCodec.decode", "py/docria/collection.py:MsgpackDocumentReader.__init__"]}
{"id": "C35", "title": "Selective reading returns the selection", "statement": "properties(*names) is the full property dict restricted to names; texts(*names) the texts restricted to names; document(*layers) a document with those layers.", "quantifier": "all encoded documents and selections", "why_tests_cant": "Any subset of any dict.", "anchors": ["py/docria/codec.py:MsgpackCodec.decode_property", "py/docria/codec.py:MsgpackCodec.decode_texts", "py/docria/codec.py:MsgpackDocument.document"]}
{"id": "C36", "title": "Pickling preserves documents", "statement": "Restoring a pickled Document gives an observably equal document; restoring a pickled MsgpackDocument gives the same bytes and reference.", "quantifier": "all valid documents", "why_tests_cant": "As C31.", "anchors": ["py/docria/model.py:Document.__getstate__", "py/docria/model.py:Document.__setstate__", "py/docria/codec.py:MsgpackDocument.__getstate__", "py/docria/codec.py:MsgpackDocument.__setstate__"]}
{"id": "C37", "title": "No reference is silently redirected", "statement": "Encoding raises if a node refers to a removed node, to a node that is not in the document, or to a span of a text that is not the document's; it never writes an index that resolves to some other node or place.", "quantifier": "all documents and reference patterns", "why_tests_cant": "Histories that replace a layer, a text or move nodes between documents.", "anchors": ["py/docria/model.py:NodeLayerCollection.validate", "py/docria/model.py:Document.compile", "py/docria/model.py:Document.add_layer", "py/docria/model.py:Document.add_text"]}
{"id": "C38", "title": "Boundary writer layout", "statement": "For any sequence of writes of any sizes, the underlying stream is the boundary byte followed by the payload, with exactly one 4 byte marker at every multiple of 2^boundary and nowhere else; removing the markers gives back the concatenated payload, independently of how it was chunked (except for a not yet needed trailing marker).", "quantifier": "all boundary values 12..30, all write sequences", "why_tests_cant": "Chunk sizes straddle boundaries in unboundedly many ways.", "anchors": ["py/docria/collection.py:_BoundaryWriter.write", "py/docria/collection.py:_BoundaryWriter._write_boundary"]}
{"id": "C39", "title": "Boundary markers point at the last record start", "statement": "The marker at position p holds the distance (last split position before it) - p as a signed 32 bit big endian number, clamped at -2^31; in a document collection every split is at the start of a block, so a marker inside a block points back to the start of that block.", "quantifier": "all interleavings of write and split", "why_tests_cant": "The distance accumulates over any history.", "anchors": ["py/docria/collection.py:_BoundaryWriter.split", "py/docria/collection.py:_BoundaryWriter._write_boundary"]}
{"id": "C40", "title": "Boundary offset translation", "statement": "The reader's logical offset to file position map sends each payload byte index to the position where the writer put that byte, and tell() inverts it.", "quantifier": "all offsets, all boundary values", "why_tests_cant": "Arithmetic over unbounded offsets.", "anchors": ["py/docria/collection.py:_BoundaryReader._to_absolute", "py/docria/collection.py:_BoundaryReader.seek", "py/docria/collection.py:_BoundaryReader.tell"]}
{"id": "C41", "title": "Boundary reader returns the payload", "statement": "Reading a boundary stream with any sequence of read sizes returns the payload bytes in order.", "quantifier": "all payloads, all boundary values, all read sequences", "why_tests_cant": "Alignment of reads with boundaries.", "anchors": ["py/docria/collection.py:_BoundaryReader.read"]}
{"id": "C42", "title": "Block files return the documents written", "statement": "For any sequence of write and flush calls followed by close, any block size and any lossless codec, the reader iterates exactly the written documents in order.", "quantifier": "all document sequences, flush points, block sizes, codecs", "why_tests_cant": "Unbounded sequences and block partitions.", "anchors": ["py/docria/collection.py:MsgpackDocumentWriter", "py/docria/collection.py:MsgpackDocumentReader"]}
{"id": "C43", "title": "Document references are stable random access handles", "statement": "The ref reported for a document (by reader iteration, block iteration or documents()) retrieves that very document through reader.get(ref), in any order and interleaved with iteration.", "quantifier": "all files, all access sequences", "why_tests_cant": "Stateful reader: current block, positions.", "anchors": ["py/docria/collection.py:MsgpackDocumentReader.get", "py/docria/collection.py:MsgpackDocumentReader.__next__", "py/docria/collection.py:MsgpackDocumentBlock"]}
{"id": "C44", "title": "A truncated file yields a prefix", "statement": "If a block file is cut at any byte after its header (crash during writing), reading it yields exactly the documents of the complete blocks, in order, and no wrong document.", "quantifier": "all files, all cut points", "why_tests_cant": "Every crash point.", "anchors": ["py/docria/collection.py:MsgpackDocumentReader.readblock", "py/docria/collection.py:MsgpackDocumentReader.__next__"]}
{"id": "C45", "title": "Index search is exact", "statement": "A property index of a file finds, for any conjunction of indexed property values, exactly the documents whose properties have those values, in file order.", "quantifier": "all files, properties and conditions", "why_tests_cant": "Any number of documents, blocks, and conditions.", "anchors": ["py/docria/collection.py:DocumentFileIndex.build", "py/docria/collection.py:DocumentFileIndex.search", "py/docria/collection.py:DocumentIndex.search"]}
{"id": "C46", "title": "Blocks hold the configured number of documents", "statement": "Without explicit flushes every block but the last has exactly num_docs_per_block documents and the last has between 1 and that many; no empty block is ever written.", "quantifier": "all document sequences in which no flush raises, block sizes >= 1, flush points", "why_tests_cant": "Counter behaviour over histories.", "anchors": ["py/docria/collection.py:MsgpackDocumentWriter.write", "py/docria/collection.py:MsgpackDocumentWriter.flush"]}
{"id": "C47", "title": "Tar collections return the documents written", "statement": "The tar reader yields exactly the written documents in order, for any root directory; member names never collide.", "quantifier": "all document sequences", "why_tests_cant": "Unbounded numbering.", "anchors": ["py/docria/collection.py:TarMsgpackWriter", "py/docria/collection.py:TarMsgpackReader"]}
{"id": "C48", "title": "Breadth first search is complete and depth exact", "statement": "bfs yields every node reachable from the start exactly once, each with the length of a shortest path as depth, in nondecreasing depth, restricted to is_result if given; it terminates on every finite graph.", "quantifier": "all finite graphs, also cyclic, all predicates", "why_tests_cant": "All graphs.", "anchors": ["py/docria/algorithm.py:bfs"]}
{"id": "C49", "title": "Depth first search is complete", "statement": "dfs yields every reachable node exactly once (restricted to is_result), starting at the start, in preorder; it terminates on every finite graph.", "quantifier": "all finite graphs", "why_tests_cant": "All graphs.", "anchors": ["py/docria/algorithm.py:dfs"]}
{"id": "C50", "title": "Leaf search returns the leaves", "statement": "dfs_leaves yields exactly the reachable nodes without children, each once.", "quantifier": "all finite graphs", "why_tests_cant": "All graphs; sharing and cycles.", "anchors": ["py/docria/algorithm.py:dfs_leaves"]}
{"id": "C51", "title": "children_of enumerates the declared children", "statement": "The function returned by children_of(layer, props...) yields for each node the nodes referred to by each given property, in order.", "quantifier": "all nodes and property lists", "why_tests_cant": "Any number of properties and references.", "anchors": ["py/docria/algorithm.py:children_of"]}
{"id": "C52", "title": "group_by_span groups exactly the intersecting nodes", "statement": "Every group node with a span appears exactly once, ordered by start; its bucket of a layer holds exactly the layer's nodes that intersect it (cover: that intersect and are covered), each once; empty spans count as occupying their position; empty groups are dropped iff requested.", "quantifier": "all sets of groups, layers, spans", "why_tests_cant": "All overlap configurations.", "anchors": ["py/docria/algorithm.py:group_by_span", "py/docria/algorithm.py:is_covered_by"]}
{"id": "C53", "title": "dominant_right returns a conflict free selection", "statement": "The selected segments are input segments, pairwise non-overlapping and in order; each rejected segment overlaps an input segment that is longer, or equally long and further right, or the same span given later; a segment that overlaps nothing is selected.", "quantifier": "all segment lists", "why_tests_cant": "All overlap configurations and ties.", "anchors": ["py/docria/algorithm.py:dominant_right", "py/docria/algorithm.py:dominant_right_span"]}
{"id": "C54", "title": "span_translate maps spans through the extraction", "statement": "When the mapping intervals are disjoint and every span starts and ends inside one, each unset target span becomes the span from the translated first character to just after the translated last character; already set spans are untouched; otherwise it raises.", "quantifier": "all mappings of nonempty intervals and all spans", "why_tests_cant": "All interval configurations.", "anchors": ["py/docria/algorithm.py:span_translate"]}
{"id": "C55", "title": "Token alignment", "statement": "sequence_to_textspans returns one span per token, in nondecreasing non-overlapping order inside the search window, each either empty or exactly spelling its token.", "quantifier": "all texts, token sequences, windows with nonnegative offsets and look-ahead k", "why_tests_cant": "Skip logic over unbounded sequences.", "anchors": ["py/docria/algorithm.py:sequence_to_textspans"]}
{"id": "C56", "title": "Query predicates form a boolean algebra", "statement": "&, | and ~ on predicates select the intersection, union and complement of the selections; comparison predicates select by the field's value.", "quantifier": "all layers, predicates and nestings", "why_tests_cant": "Nesting depth unbounded.", "anchors": ["py/docria/query.py:NodePredicateAnd", "py/docria/query.py:NodePredicateOr", "py/docria/query.py:NodePredicateInvert", "py/docria/query.py:NodeFieldPredicateEq", "py/docria/query.py:NodeFieldPredicateContains"]}
{"id": "C57", "title": "Queries select in order, as a snapshot", "statement": "layer[pred] holds exactly the nodes satisfying pred in layer order; it is not affected by later changes until update(), after which it equals a fresh query.", "quantifier": "all reachable states and predicates", "why_tests_cant": "Histories between query and use.", "anchors": ["py/docria/model.py:NodeCollectionQuery"]}
{"id": "C58", "title": "Truncation bounds cell width", "statement": "For every text and every settable option combination, the printed cell is at most max_column_width characters, is the text itself when short enough, and otherwise shows a prefix and a suffix of it.", "quantifier": "all strings and option values", "why_tests_cant": "All lengths.", "anchors": ["py/docria/printout.py:truncate", "py/docria/printout.py:PrintOptions"]}
{"id": "C59", "title": "Row truncation shows head and tail with right numbers", "statement": "A table prints all rows when there are at most max_rows, otherwise exactly the first and last max_rows//2 rows with their original indices and one gap marker.", "quantifier": "all tables and options", "why_tests_cant": "All sizes.", "anchors": ["py/docria/printout.py:Table._compile_text", "py/docria/printout.py:Table._compile_html"]}
{"id": "C60", "title": "Wrapped tables show every column once", "statement": "Text rendering terminates and shows every column exactly once, in order, over consecutive column blocks, none wider than max_display_width.", "quantifier": "all column widths and options", "why_tests_cant": "All width lists.", "anchors": ["py/docria/printout.py:Table.render_text"]}
{"id": "C61", "title": "HTML output cannot be injected by data", "statement": "No value, caption or header shown in an HTML table, and no text shown by a Text's HTML view, can introduce markup: all of <, >, &, quotes from data appear escaped.", "quantifier": "all strings", "why_tests_cant": "All strings.", "anchors": ["py/docria/printout.py:Table.format_html", "py/docria/printout.py:Table.render_html", "py/docria/model.py:Text._repr_html_"]}
{"id": "C62", "title": "XML string cleaning", "statement": "The XML codec's string cleaning yields only characters allowed in XML 1.0, preserves length and leaves strings of allowed characters unchanged.", "quantifier": "all Unicode strings", "why_tests_cant": "All code points.", "anchors": ["py/docria/codec.py:XmlCodec._string_encoder"]}
{"id": "C63", "title": "XML export carries the document", "statement": "The XML tree of a valid document lists texts segments, schema, and per node its attributes, spans and references so that each is recoverable; identifiers are unique.", "quantifier": "all valid documents", "why_tests_cant": "All documents.", "anchors": ["py/docria/codec.py:XmlCodec.encode_intermediate", "py/docria/codec.py:XmlCodec.encode_tree"]}
{"id": "C64", "title": "Schema type encoding is invertible", "statement": "Every field type's wire form (name, or name with arguments) decodes to a type with the same type name and options; distinct type names have distinct wire names.", "quantifier": "all types and options", "why_tests_cant": "Option values are unbounded.", "anchors": ["py/docria/model.py:DataType.encode", "py/docria/model.py:DataType2String", "py/docria/codec.py:MsgpackCodec.decode_schema"]}
{"id": "C65", "title": "JSON text", "statement": "Data without bytes is written as printable ASCII JSON that reads back to the same data, whatever white space surrounds it; different data gives different text; bytes anywhere inside raise TypeError; a list or dict whose text is cut off anywhere is refused with ValueError.", "quantifier": "all values of None, bool, int, float, str, list and dict, nested without bound; all strings; all cut points", "why_tests_cant": "Strings range over all of Unicode and nesting is unbounded; every cut point of every text.", "anchors": ["py/docria/codec.py:JsonCodec.encode", "py/docria/codec.py:JsonCodec.decode"]}
{"id": "C66", "title": "JSON codec round trip", "statement": "A valid document without bytes is encoded to JSON, and decoding gives the same document; encoding again gives the same string; the JSON and MessagePack codecs give the same document; documents with bytes in a field are refused with TypeError; cut off JSON, text that is not JSON and JSON without DM10 are refused. In a document read from JSON every span field is declared on a text of the document.", "quantifier": "all reachable valid documents, all strings", "why_tests_cant": "Documents, texts and references are unbounded and the references can be cyclic.", "anchors": ["py/docria/codec.py:JsonCodec.encode", "py/docria/codec.py:JsonCodec.encode_object", "py/docria/codec.py:JsonCodec.decode", "py/docria/codec.py:JsonCodec.decode_object"]}
{"id": "C67", "title": "Node lists", "statement": "NodeList(nodes) refuses nodes whose types for one field neither share a name nor are all numeric, and otherwise gives each field seen on the nodes a type seen for it; nodes[i], nodes[a:b], nodes[[i, j]], first and last follow Python's list indexing and keep the field types; nodes[field] has one value per node, None where unset; layer.to_list() has the layer's nodes in order and its declared types.", "quantifier": "all reachable documents, all lists of nodes of any layers or of none, all orders in which Python may iterate the sets involved, all indices", "why_tests_cant": "Set iteration order depends on hashing and memory addresses; a test sees one order. Lists, layers and types are unbounded.", "anchors": ["py/docria/model.py:NodeList.__init__", "py/docria/model.py:NodeList.__getitem__", "py/docria/model.py:NodeCollection.to_list", "py/docria/model.py:NodeCollection.__getitem__"]}
{"id": "C68", "title": "Documents as containers", "statement": "add_text and add_layer make the new text or layer available under its name, leave all other names alone and change no existing text or layer object; name in doc, doc[name] and the layer names agree; the main text can be set once and is not replaced afterwards.", "quantifier": "all reachable documents, all names, all API calls after the main text was set", "why_tests_cant": "Ranges over every call that can follow in every document.", "anchors": ["py/docria/model.py:Document.maintext", "py/docria/model.py:Document.add_text", "py/docria/model.py:Document.add_layer", "py/docria/model.py:Document.__getitem__", "py/docria/model.py:Document.__contains__"]}
{"id": "C69", "title": "Layer schemas take each field once", "statement": "NodeLayerSchema.add appends a new field and refuses a name it has; set(**fields) does so for each in order, keeping those before the first refused.", "quantifier": "all schemas and all sets of new fields", "why_tests_cant": "Schemas are unbounded.", "anchors": ["py/docria/model.py:NodeLayerSchema.add", "py/docria/model.py:NodeLayerSchema.set"]}
{"id": "C70", "title": "Printing layers, queries, node lists, spans of nodes and nodes", "statement": "The printed table of a layer, query or node list has a column for every declared field in alphabetical order and a row for every node in order, showing for each field what the node has: NIL when unset, a node by its layer and id, several nodes by their number and layer, texts in quotes that distinguish different texts; the table of a node has a row for every field that is set. As HTML, nothing in the document adds a tag or an attribute. Every layer can be printed.", "quantifier": "all reachable documents, all layers, queries, lists, spans and nodes, all display options, any table of printable characters", "why_tests_cant": "Ranges over all documents, names and values, including names and values chosen to break the output.", "anchors": ["py/docria/printout.py:get_representation", "py/docria/model.py:NodeCollection._table_repr_", "py/docria/model.py:Node._table_repr_", "py/docria/model.py:Node.__repr__", "py/docria/model.py:NodeSpan.__repr__", "py/docria/model.py:NodeLayerCollection._repr_html_"]}
{"id": "C71", "title": "Embedded documents and extended data", "statement": "MsgpackDocumentExt(doc).encode() gives bytes from which another MsgpackDocumentExt decodes an equal document, encode() leaves bytes alone and decode() yields the same document each time; ExtData encodes bytes as they are; and a document whose extended fields hold bytes can be encoded.", "quantifier": "all reachable documents that can be encoded, all bytes", "why_tests_cant": "Ranges over all documents and all byte strings.", "anchors": ["py/docria/codec.py:MsgpackDocumentExt", "py/docria/model.py:ExtData", "py/docria/codec.py:Codec.encode"]}
{"id": "C72", "title": "The index of a directory covers its docria files", "statement": "build_msgpack_directory_fileindex indexes every docria file of the directory and nothing else, and searching the index finds exactly the matching documents of all these files, whatever order the workers finish in; it opens no other file; if a file cannot be indexed there is no index.", "quantifier": "all directory listings, file contents, properties and completion orders", "why_tests_cant": "Workers complete in any order, and names and contents are unbounded.", "anchors": ["py/docria/collection.py:build_msgpack_directory_fileindex", "py/docria/collection.py:_build_file_index", "py/docria/collection.py:DocumentIndex.add"]}
{"id": "C73", "title": "Accessors of nodes, layers and queries", "statement": "get_prop yields the value of a field or the default; chain applies its functions from the left until one raises; node.fld reads, writes and deletes exactly the named field, reading None when it is not set; is_valid() answers True for exactly the nodes of a layer whose declared fields hold values of their types, and False for all others; layer[node] is the node if the layer holds it and DataValidationError otherwise; query[name] is the field collection of a declared field and None otherwise.", "quantifier": "all reachable documents, nodes, layers, names, values and lists of functions", "why_tests_cant": "Ranges over all documents and values of the wrong kind.", "anchors": ["py/docria/algorithm.py:get_prop", "py/docria/algorithm.py:chain", "py/docria/model.py:_DictAsMembers", "py/docria/model.py:Node.is_valid", "py/docria/model.py:NodeLayerCollection.__getitem__", "py/docria/model.py:NodeCollectionQuery.__getitem__"]}
{"id": "C74", "title": "A layer as a data frame", "statement": "to_pandas gives a column for every field asked for, by default all declared fields, in order, with one value for every node of the layer in order: the value of the field, None if not set, and the text of a span where spans are materialised; the column __ref holds the nodes. An undeclared field is a KeyError.", "quantifier": "all reachable documents and layers, all selections of fields, both options", "why_tests_cant": "Layers, gaps left by removed nodes, and field names are unbounded.", "anchors": ["py/docria/model.py:NodeLayerCollection.to_pandas"]}
{"id": "C75", "title": "Printing a document and its schema", "statement": "str(doc) shows every text by name and quoted text and every layer by name and number of nodes, in order of insertion; repr(doc) counts layers and texts and lists the properties; printschema prints the layers in alphabetical order with a line for each field, aligned, naming its type and options.", "quantifier": "all reachable documents, all display options", "why_tests_cant": "Ranges over all documents, names and options.", "anchors": ["py/docria/model.py:Document.__str__", "py/docria/model.py:Document.__repr__", "py/docria/model.py:Document.printschema"]}
{"id": "C76", "title": "Java and Python boundary writers make the same file", "statement": "For every boundary value, the Java BoundaryWriter accepts exactly the values that the Python writer accepts, and for all array writes and splits its file is byte for byte the Python writer's. Writing a single byte with write(int) adds that byte to the payload.", "quantifier": "all boundary values, all sequences of writes and splits, all bytes", "why_tests_cant": "Needs two languages, and the failure of write(int) shows only at the last byte before a marker.", "anchors": ["java/core/src/main/java/se/lth/cs/docria/io/BoundaryWriter.java:write", "java/core/src/main/java/se/lth/cs/docria/io/BoundaryWriter.java:writeBoundary", "java/core/src/main/java/se/lth/cs/docria/io/BoundaryWriter.java:split", "py/docria/collection.py:_BoundaryWriter"]}
{"id": "C77", "title": "The Java boundary reader is the payload as a stream", "statement": "A Java BoundaryReader over a file made by either boundary writer returns the payload byte by byte and in arrays of any lengths, reports the end with -1, however the underlying stream cuts its reads; skip(n) moves on in the payload by what it returns; available() never promises more than is left.", "quantifier": "all boundary values, all written files, all sequences of reads, all ways the underlying stream returns fewer bytes than asked", "why_tests_cant": "Ranges over all chunkings; the endless loop needs a file that ends exactly at a multiple of the boundary.", "anchors": ["java/core/src/main/java/se/lth/cs/docria/io/BoundaryReader.java:read", "java/core/src/main/java/se/lth/cs/docria/io/BoundaryReader.java:skipBoundaryValue", "java/core/src/main/java/se/lth/cs/docria/io/BoundaryReader.java:skip", "java/core/src/main/java/se/lth/cs/docria/io/BoundaryReader.java:available"]}
{"id": "C78", "title": "Payload length between two file positions", "statement": "BoundaryReader.computeLength(boundary, start, stop) is the number of payload bytes between the two positions of the file.", "quantifier": "all boundary values and positions", "why_tests_cant": "Positions are unbounded; the test of the library checks ten of them.", "anchors": ["java/core/src/main/java/se/lth/cs/docria/io/BoundaryReader.java:computeLength"]}
{"id": "C79", "title": "Java output buffer and deflate codec", "statement": "A ByteOutputBuffer of any size takes every sequence of single bytes and arrays and gives back exactly their concatenation and its length; DeflateCodec.compress and decompress return exactly what the deflate library produces, however it portions its output, and always come to an end.", "quantifier": "all buffer sizes, all sequences of writes, all portionings of the library's output", "why_tests_cant": "Failures sit at buffer sizes and at input that ends too early; all portionings cannot be provoked through the library.", "anchors": ["java/core/src/main/java/se/lth/cs/docria/io/ByteOutputBuffer.java:write", "java/core/src/main/java/se/lth/cs/docria/io/ByteOutputBuffer.java:toByteArray", "java/core/src/main/java/se/lth/cs/docria/io/DeflateCodec.java:compress", "java/core/src/main/java/se/lth/cs/docria/io/DeflateCodec.java:decompress"]}
{"id": "C80", "title": "Java document writers make the Python file format", "statement": "For the same documents, flushes, block size and codec, the Java writer's file, once closed, is byte for byte the Python writer's, with and without boundaries, and the Python reader yields exactly the documents. With boundaries, a split is made in front of every block.", "quantifier": "all sequences of documents and flushes, all block sizes and codecs", "why_tests_cant": "Needs both languages; the file without documents and the first block's split are not in any test.", "anchors": ["java/core/src/main/java/se/lth/cs/docria/io/DocumentStreamWriter.java:DocumentStreamWriter", "java/core/src/main/java/se/lth/cs/docria/io/DocumentStreamWriter.java:flushblock", "java/core/src/main/java/se/lth/cs/docria/io/DocumentStreamWriter.java:write", "java/core/src/main/java/se/lth/cs/docria/io/DocumentStreamBoundaryWriter.java:flushblock", "py/docria/collection.py:DocumentWriter"]}
{"id": "C81", "title": "Java document reader reads what was written", "statement": "The Java reader opens every file of the Java or the Python writer, and any sequence of next, skip, skip(n) and count behaves like the same calls on the list of documents. skipBlock leaves out exactly the next unopened block; nextBlock gives the non-empty blocks one by one, and documents after it continue with the next block.", "quantifier": "all files, including empty blocks, and all sequences of calls", "why_tests_cant": "The sequences of calls are unbounded, and the failures need particular mixtures of calls at block ends.", "anchors": ["java/core/src/main/java/se/lth/cs/docria/io/DocumentStreamReader.java:nextRaw", "java/core/src/main/java/se/lth/cs/docria/io/DocumentStreamReader.java:skip", "java/core/src/main/java/se/lth/cs/docria/io/DocumentStreamReader.java:count", "java/core/src/main/java/se/lth/cs/docria/io/DocumentStreamReader.java:nextBlock", "java/core/src/main/java/se/lth/cs/docria/io/DocumentStreamReader.java:skipBlock", "java/core/src/main/java/se/lth/cs/docria/io/MsgpackDocumentStreamReader.java:next"]}
{"id": "C82", "title": "Java nextBlock from several threads", "statement": "nextBlock is documented as safe for concurrent use: whatever threads call it at once and however their steps interleave, every block of the file is given to exactly one of them, and empty blocks to none.", "quantifier": "all files, numbers of threads and interleavings", "why_tests_cant": "The interleavings are unbounded and a test sees only those the scheduler happens to make.", "anchors": ["java/core/src/main/java/se/lth/cs/docria/io/DocumentStreamReader.java:nextBlock", "java/core/src/main/java/se/lth/cs/docria/io/DocumentStreamReader.java:readNextBlock"]}
{"id": "C83", "title": "Java layers are lists of nodes", "statement": "Whatever calls of add, remove, removeAll, clear and compact are made, a Java Layer answers as a list of nodes would: iteration gives the nodes in order of addition, size is their number, contains is membership, get of a node's id is the node, first and last are the ends, nodespan the nodes between; sort permutes the nodes, retainAll keeps exactly the given ones.", "quantifier": "all sequences of calls and all nodes, also nodes of other layers", "why_tests_cant": "The sequences are unbounded; failures need an addition after a removal before the slots are given up.", "anchors": ["java/core/src/main/java/se/lth/cs/docria/Layer.java:add", "java/core/src/main/java/se/lth/cs/docria/Layer.java:remove", "java/core/src/main/java/se/lth/cs/docria/Layer.java:removeAll", "java/core/src/main/java/se/lth/cs/docria/Layer.java:retainAll", "java/core/src/main/java/se/lth/cs/docria/Layer.java:compact", "java/core/src/main/java/se/lth/cs/docria/Layer.java:clear", "java/core/src/main/java/se/lth/cs/docria/Layer.java:sort", "java/core/src/main/java/se/lth/cs/docria/Layer.java:nodespan"]}
{"id": "C84", "title": "Java texts are cut at their spans", "statement": "Whatever spans are made of a Java Text and however often it is compiled, the parts of a compile concatenate to the text, and the border numbers of each span given to the compile are the borders at the span's start and stop; span accepts exactly the ranges inside the text; Python's parts of the same text and offsets are the same strings.", "quantifier": "all texts, sequences of spans and compiles, sets of used spans", "why_tests_cant": "Sequences of compiles with different used spans are unbounded; the failure needs a span that skips a compile.", "anchors": ["java/core/src/main/java/se/lth/cs/docria/Text.java:span", "java/core/src/main/java/se/lth/cs/docria/Text.java:compile", "java/core/src/main/java/se/lth/cs/docria/Text.java:reset", "java/core/src/main/java/se/lth/cs/docria/Span.java:incref", "py/docria/model.py:Text.compile"]}
{"id": "C85", "title": "Java spans are their characters", "statement": "A Java Span is the characters from its start to its stop: stringValue, charAt and subSequence are those of that string, covers and intersects are inclusion and having a position in common, compareTo orders by start, then stop, equals is equality of the ends.", "quantifier": "all texts, spans and indices", "why_tests_cant": "Indices outside the span and spans of different age are rarely tried together.", "anchors": ["java/core/src/main/java/se/lth/cs/docria/Span.java:charAt", "java/core/src/main/java/se/lth/cs/docria/Span.java:subSequence", "java/core/src/main/java/se/lth/cs/docria/Span.java:intersects", "java/core/src/main/java/se/lth/cs/docria/Span.java:covers", "java/core/src/main/java/se/lth/cs/docria/Span.java:compareTo", "java/core/src/main/java/se/lth/cs/docria/Span.java:equals", "java/core/src/main/java/se/lth/cs/docria/Offset.java:equals"]}
{"id": "C86", "title": "Editing Java documents", "statement": "However texts, schemas, nodes, spans, field values and properties are added to a Java Document and however often it is encoded in between, the document stays sound: each node is in one layer, layer sizes count the nodes, spans in span fields have their offsets in the table of their text. Adding a text or a node changes nothing else. Removing a text or layer removes it together with the fields that refer to it. validateSchema passes just if every field that refers to a text or layer refers to one that is there.", "quantifier": "all sequences of calls, all documents", "why_tests_cant": "Sequences of calls are unbounded; the failures need an encode between making a span and using it, or a removal followed by a look at what is left.", "anchors": ["java/core/src/main/java/se/lth/cs/docria/Document.java:add", "java/core/src/main/java/se/lth/cs/docria/Document.java:remove", "java/core/src/main/java/se/lth/cs/docria/Document.java:validateSchema", "java/core/src/main/java/se/lth/cs/docria/Document.java:compile", "java/core/src/main/java/se/lth/cs/docria/Layer.java:add", "java/core/src/main/java/se/lth/cs/docria/Layer.java:removeField", "java/core/src/main/java/se/lth/cs/docria/Node.java:put", "java/core/src/main/java/se/lth/cs/docria/Text.java:span"]}
{"id": "C87", "title": "Java to Python", "statement": "What the Java encoder writes for a sound Document with valid content and no values in extended fields (for these see C101), the Python decoder reads as a document with the same properties, texts, layers, schemas, nodes, spans (counted in characters) and references, whatever bytes follow; encoding leaves the content of the Java document as it was.", "quantifier": "all Java documents, all following bytes", "why_tests_cant": "Agreement of two programs in two languages over all documents; texts outside the BMP have different positions in the two.", "anchors": ["java/core/src/main/java/se/lth/cs/docria/MsgpackCodec.java:encode", "java/core/src/main/java/se/lth/cs/docria/Document.java:compile", "java/core/src/main/java/se/lth/cs/docria/Text.java:compile", "py/docria/codec.py:MsgpackCodec.decode"]}
{"id": "C88", "title": "Python to Java", "statement": "A valid Python document has exactly one content, which is valid; what the Python encoder writes for it, the Java decoder reads as a document with that content, whatever bytes follow.", "quantifier": "all reachable valid Python documents, both compile options, all following bytes", "why_tests_cant": "Agreement of two programs in two languages over all documents.", "anchors": ["py/docria/codec.py:MsgpackCodec.encode", "java/core/src/main/java/se/lth/cs/docria/MsgpackCodec.java:decode", "java/core/src/main/java/se/lth/cs/docria/MsgpackCodec.java:FieldDecoder", "java/core/src/main/java/se/lth/cs/docria/MsgpackCodec.java:decodeProperties"]}
{"id": "C89", "title": "Java to Java", "statement": "What the Java encoder writes for a sound Document with valid content, the Java decoder reads as a document with the same content.", "quantifier": "all Java documents, all following bytes", "why_tests_cant": "All documents; some kinds of values are written and cannot be read back.", "anchors": ["java/core/src/main/java/se/lth/cs/docria/MsgpackCodec.java:encode", "java/core/src/main/java/se/lth/cs/docria/MsgpackCodec.java:decode"]}
{"id": "C90", "title": "Documents passed between the libraries", "statement": "A valid Python document whose content both libraries can read keeps its content however often it is read and written by either library, in any order. At every stage the Python decoder gives a reachable, valid document and the Java decoder a sound one, which stays sound under any further calls.", "quantifier": "all reachable valid Python documents with content the Java decoder can read, all sequences of reads and writes by the two libraries, all calls on the documents read", "why_tests_cant": "Unbounded number of passes and of calls between them; the documents that the two decoders make have states (shared or doubled Offsets, compacted layers) that constructors do not make.", "anchors": ["java/core/src/main/java/se/lth/cs/docria/MsgpackCodec.java:encode", "java/core/src/main/java/se/lth/cs/docria/MsgpackCodec.java:decode", "py/docria/codec.py:MsgpackCodec.encode", "py/docria/codec.py:MsgpackCodec.decode", "java/core/src/main/java/se/lth/cs/docria/Text.java:initializeOffsets", "java/core/src/main/java/se/lth/cs/docria/Text.java:compile"]}
{"id": "C91", "title": "GroupBySpan (Java) groups exactly the intersecting nodes", "statement": "solve() lists every group node with a span exactly once, ordered by start (without includeEmptyGroups only those that some node belongs to). Each group has a list per name, in the order of names, holding exactly the nodes given for that name that intersect it (COVER: that intersect and are covered), each once. The order of the group() calls does not matter, a second call with a name replaces the first; layers without the span field are refused.", "quantifier": "all documents, distinct group nodes, group() calls with distinct names, spans, both resolutions", "why_tests_cant": "All overlap configurations, with ties between starts, stops and empty spans of several layers.", "anchors": ["java/core/src/main/java/se/lth/cs/docria/algorithms/GroupBySpan.java:Builder.solve", "java/core/src/main/java/se/lth/cs/docria/algorithms/GroupBySpan.java:Builder.group", "java/core/src/main/java/se/lth/cs/docria/algorithms/GroupBySpan.java:builder"]}
{"id": "C92", "title": "DominantRight (Java) returns a conflict free selection", "statement": "The selected segments are input segments, pairwise non-overlapping and in order; each rejected segment overlaps an input segment that is longer, or equally long and further right, or the same span given later; a segment that overlaps nothing is selected. Nodes are selected by their spans or by the ids of their node spans.", "quantifier": "all segment lists, all lists of nodes with spans or node spans", "why_tests_cant": "All overlap configurations and ties.", "anchors": ["java/core/src/main/java/se/lth/cs/docria/algorithms/DominantRight.java:resolve", "java/core/src/main/java/se/lth/cs/docria/algorithms/DominantRight.java:resolveNodespans"]}
{"id": "C93", "title": "The compartments of MsgpackDocument (Java) make up the file", "statement": "For a file written by either library, a MsgpackDocument is made iff the bytes begin with the header; in any order of calls its compartments for properties, schema, texts and layers follow each other behind the header and make up the file; properties() and document() are what the decoder makes of the file, schema() is its schema; the properties and the schema can be parsed from their compartments, and the four compartments together are a document again.", "quantifier": "all documents that the decoder can read, any number of layers, all orders of calls", "why_tests_cant": "All documents of both encoders and all orders of the getters, which share a cache of positions.", "anchors": ["java/core/src/main/java/se/lth/cs/docria/MsgpackDocument.java:determineCompartments", "java/core/src/main/java/se/lth/cs/docria/MsgpackDocument.java:properties", "java/core/src/main/java/se/lth/cs/docria/MsgpackDocument.java:MsgpackDocument"]}
{"id": "C94", "title": "DocumentWritable (Java, Hadoop) carries its document", "statement": "A DocumentWritable holds one document: what write wrote, readFields of any writable reads back, leaving what is behind it; in any sequence of getDocument, getMsgpackBlob, getMsgpackDocument and transports every document and every file that is returned has the content that was put in; and changes of the document that getDocument returned are in what is written.", "quantifier": "all documents that Java can read, all sequences of calls and transports, any states of the targets, any number of writables in a stream", "why_tests_cant": "All sequences of getters and transports over the two cached forms.", "anchors": ["java/hadoop/src/main/java/se/lth/cs/docria/hadoop/DocumentWritable.java:getDocument", "java/hadoop/src/main/java/se/lth/cs/docria/hadoop/DocumentWritable.java:getMsgpackBlob", "java/hadoop/src/main/java/se/lth/cs/docria/hadoop/DocumentWritable.java:write", "java/hadoop/src/main/java/se/lth/cs/docria/hadoop/DocumentWritable.java:readFields"]}
{"id": "C95", "title": "What DocriaOutputFormat writes, DocriaInputFormat reads (Java, Hadoop)", "statement": "The file of a task that writes any number of documents with DocriaOutputFormat and closes the writer is opened by the record reader of DocriaInputFormat; nextKeyValue is true once for each document, in order, and the key then holds the same content, whatever was done to the shared key before; afterwards nextKeyValue is false however often it is called. Closing twice is harmless.", "quantifier": "any number of documents, all sizes of blocks, any use of the key between the calls, any number of calls", "why_tests_cant": "All numbers of records, block sizes and interleavings with changes of the shared key.", "anchors": ["java/hadoop/src/main/java/se/lth/cs/docria/hadoop/DocriaWriter.java:write", "java/hadoop/src/main/java/se/lth/cs/docria/hadoop/DocriaWriter.java:close", "java/hadoop/src/main/java/se/lth/cs/docria/hadoop/DocriaOutputFormat.java:getRecordWriter", "java/hadoop/src/main/java/se/lth/cs/docria/hadoop/DocriaInputFormat.java:nextKeyValue"]}
{"id": "C96", "title": "Nodes made with the validating builder (Java) are of the schema, and are read back", "statement": "Node.Builder.put accepts a value exactly if the layer declares the field, the field was not put before and the value is of the declared type; so in a document whose nodes are all made with Layer.create() what a node holds is declared and of the declared type, references are to nodes of the layer that the type names, and the file that MsgpackCodec encodes is read by Java, and if no extended field is declared by Python, with this content.", "quantifier": "all sequences of adding texts, layers, properties, building nodes, making spans and encoding; all values", "why_tests_cant": "All programs over the builder and all schemas.", "anchors": ["java/core/src/main/java/se/lth/cs/docria/Node.java:Builder", "java/core/src/main/java/se/lth/cs/docria/NodeSpan.java:NodeSpan", "java/core/src/main/java/se/lth/cs/docria/values/NodeArrayValue.java:type", "java/core/src/main/java/se/lth/cs/docria/values/Values.java:get", "java/core/src/main/java/se/lth/cs/docria/MsgpackCodec.java:encode"]}
{"id": "C97", "title": "Reading and converting values (Java)", "statement": "A value gives back what it was made of; int, long, double and string convert into each other without loss where the target can hold the number (parseInt of the printed number is the number, exactly the decimal numbers in range are read, the double of a long is the nearest one, a double is cut at the point); boolValue says whether a number is not zero; bytes are Base64; every value has a string; the nodes and the text of a NodeSpan are those from its left to its right node.", "quantifier": "all values, all ints, longs, doubles, strings, byte arrays, all documents", "why_tests_cant": "All 2^64 doubles and longs, all strings.", "anchors": ["java/core/src/main/java/se/lth/cs/docria/Value.java:intValue", "java/core/src/main/java/se/lth/cs/docria/values/DoubleValue.java:boolValue", "java/core/src/main/java/se/lth/cs/docria/values/LongValue.java:intValue", "java/core/src/main/java/se/lth/cs/docria/values/Values.java:get", "java/core/src/main/java/se/lth/cs/docria/values/BinaryValue.java:stringValue", "java/core/src/main/java/se/lth/cs/docria/NodeSpan.java:stringValue"]}
{"id": "C98", "title": "Nodes that are objects of a class (Java)", "statement": "A ConcreteNode whose setters keep what they are given and whose getters give it back behaves as a Node: after a builder and any puts it reads the last value of each field, has exactly the fields that are set, reads the default for the others, forgets what is removed, and visits each field once; references of a document that is read are those that were written.", "quantifier": "all classes with such getters and setters, all builders, all sequences of puts", "why_tests_cant": "The class is the user's; any number of fields and writes.", "anchors": ["java/core/src/main/java/se/lth/cs/docria/ConcreteNode.java:get", "java/core/src/main/java/se/lth/cs/docria/ConcreteNode.java:put", "java/core/src/main/java/se/lth/cs/docria/ConcreteNode.java:has", "java/core/src/main/java/se/lth/cs/docria/ConcreteNode.java:setData", "java/core/src/main/java/se/lth/cs/docria/ConcreteNode.java:forEach", "java/core/src/main/java/se/lth/cs/docria/Node.java:remove", "java/core/src/main/java/se/lth/cs/docria/MsgpackCodec.java:resolveReferences"]}
{"id": "C99", "title": "Equality and hash codes (Java)", "statement": "equals of values, nodes, spans, Offsets, texts, layers and types is an equivalence, and equal objects have equal hash codes. Values with the same contents are equal; nodes of a layer are equal only to themselves; spans are equal exactly if they cover the same part of the same text. A hash map with such objects as keys reads for a key the value that was last put for an equal key.", "quantifier": "all objects, all contents of their fields, all sequences of puts, all sequences of calls on a layer", "why_tests_cant": "Pairs and triples of objects of unbounded content, with ids that depend on the history of the layer or text.", "anchors": ["java/core/src/main/java/se/lth/cs/docria/Node.java:equals", "java/core/src/main/java/se/lth/cs/docria/Node.java:hashCode", "java/core/src/main/java/se/lth/cs/docria/Layer.java:equals", "java/core/src/main/java/se/lth/cs/docria/Span.java:equals", "java/core/src/main/java/se/lth/cs/docria/Span.java:hashCode", "java/core/src/main/java/se/lth/cs/docria/Offset.java:equals", "java/core/src/main/java/se/lth/cs/docria/Text.java:equals", "java/core/src/main/java/se/lth/cs/docria/DataType.java:equals", "java/core/src/main/java/se/lth/cs/docria/DataType.java:hashCode", "java/core/src/main/java/se/lth/cs/docria/values/DoubleValue.java:equals", "java/core/src/main/java/se/lth/cs/docria/values/BinaryValue.java:hashCode"]}
{"id": "C100", "title": "Schemas, types and their builders (Java)", "statement": "What a builder builds has its name and the fields (for types, the arguments) added to it; a duplicate is refused. A document made from a Schema has one empty layer for each of its layers, with its fields. The fields of a layer change only by calls on that layer: built things, schemas, their copies and the documents made from them are independent of each other. The Schema of a document lists the schemas of just its layers.", "quantifier": "all sequences of calls on builders of types and layers, Schema.Layers, Schemas, Documents and Layers, all fields and arguments", "why_tests_cant": "Which objects share a map depends on the whole history of calls; the number of objects and calls is unbounded.", "anchors": ["java/core/src/main/java/se/lth/cs/docria/Schema.java:LayerBuilder", "java/core/src/main/java/se/lth/cs/docria/Schema.java:Layer", "java/core/src/main/java/se/lth/cs/docria/Schema.java:Schema", "java/core/src/main/java/se/lth/cs/docria/DataType.java:Builder", "java/core/src/main/java/se/lth/cs/docria/Document.java:Document", "java/core/src/main/java/se/lth/cs/docria/Document.java:add", "java/core/src/main/java/se/lth/cs/docria/Layer.java:addField", "java/core/src/main/java/se/lth/cs/docria/Layer.java:removeField"]}
{"id": "C101", "title": "Extended values and documents inside documents", "statement": "A file that either library writes, with values in extended fields, is read by Python; a field of type \"doc\" then holds the Document that its bytes are, again with all its content, to any depth. Java reads extended values with the same type and bytes.", "quantifier": "all files that either library writes for documents with valid content, all nesting depths", "why_tests_cant": "Nesting is unbounded; agreement of two programs over all documents.", "anchors": ["py/docria/codec.py:MsgpackCodec.decode", "java/core/src/main/java/se/lth/cs/docria/MsgpackCodec.java:encode", "java/core/src/main/java/se/lth/cs/docria/MsgpackCodec.java:decode", "java/core/src/main/java/se/lth/cs/docria/values/ExtensionValue.java:ExtensionValue"]}
{"id": "C102", "title": "Values that are not of the declared type, when encoding", "statement": "Document.to_msgpack/to_json refuse a document in which a field holds a value that is not of the declared type. As the code stands, it is either refused or written as another value of the declared type, which is determined: the whole part of a float, the integer that a text denotes, the float nearest to an integer, the truth value, the nodes of a NodeSpan, the neighbours of a Node, and so on. Every column written holds entries of the kind of its type only.", "quantifier": "all reachable documents, all types, all values, with or without validation", "why_tests_cant": "All values of all Python types, including all integers, floats and texts, for each declared type; all documents.", "anchors": ["py/docria/codec.py:Codec.encode", "py/docria/codec.py:Codec.encoders", "py/docria/model.py:DataType.is_valid"]}
{"id": "C103", "title": "Loops over a layer that change the layer", "statement": "A loop `for n in layer: if p(n): layer.remove(n)` removes exactly the nodes with p. As the code stands, it always ends without an exception, sees nodes of the layer in order and none twice, and removes exactly those with p that it sees; it sees all of them unless the layer has more than 16 places and more than a quarter of them get empty. `layer.remove(n for n in layer if p(n))` always removes exactly the nodes with p. A loop that sets fields visits every node once. A loop that adds a node in every round does not end.", "quantifier": "all reachable documents, all layers, all conditions, all numbers of rounds; for gaps, all loop bodies", "why_tests_cant": "Whether nodes are skipped depends on how many are removed when, in layers of more than 16 nodes; the conditions and layers are unlimited in number, and that a loop never ends cannot be observed.", "anchors": ["py/docria/model.py:NodeLayerCollection.__iter__", "py/docria/model.py:NodeLayerCollection.remove", "py/docria/model.py:NodeLayerCollection.compact"]}
{"id": "C104", "title": "A document cut short is refused", "statement": "Of what an encoder writes for a valid document, every part from the beginning that is not all of it is refused: by the Python decoder with ValueError if not even the magic bytes are there, otherwise with OutOfData or StopIteration; by the Java decoder with an exception for the end of the data. A MsgpackDocument over such data never gives a document, whatever it was asked before; the properties, schema or texts that it does give are those of the whole document. For any data, what can be decoded can be decoded to the same document with anything behind it. `debug` lists the whole content of an encoded document, and of one cut short exactly the lines that come before the first object that is not all there, with StopIteration.", "quantifier": "all reachable encodable documents (and all Java documents that can be written), all lengths of the remaining part; all byte sequences for the statements about more data", "why_tests_cant": "A document can be cut at any of its bytes, and whether a part of it happens to be decodable depends on all lengths and values written before.", "anchors": ["py/docria/codec.py:MsgpackCodec.decode", "py/docria/codec.py:MsgpackDocument.document", "py/docria/codec.py:MsgpackCodec.debug", "java/core/src/main/java/se/lth/cs/docria/MsgpackCodec.java:decode"]}
{"id": "C105", "title": "Java: loops over a layer that change the layer", "statement": "A loop over a layer, by iterator or forEach, ends whatever its body does, after at most as many rounds as the layer has slots. A body that only takes nodes away gets nodes that were in the layer, each at most once, in order, without ConcurrentModificationException, and leaves the layer consistent. A loop that removes the nodes with some property leaves exactly the nodes without it. Adding a node, or clearing the layer, in a loop is noticed with ConcurrentModificationException. [The third sentence is false in the code: a layer of more than 16 slots gives up its empty slots during the loop and the loop skips as many nodes as there were empty slots; removing all of n > 16 nodes, also by layer.removeAll(layer), leaves n/4 + 1. Layer.removeIf never works.]", "quantifier": "all consistent layers, all bodies made of add, remove, removeAll, clear and compact calls depending on the round and the node, all properties of nodes", "why_tests_cant": "Whether nodes are skipped depends on how many nodes were removed when, relative to the number of slots; tests with at most 16 nodes never show it.", "anchors": ["java/core/src/main/java/se/lth/cs/docria/Layer.java:iterator", "java/core/src/main/java/se/lth/cs/docria/Layer.java:forEach", "java/core/src/main/java/se/lth/cs/docria/Layer.java:remove", "java/core/src/main/java/se/lth/cs/docria/Layer.java:removeAll", "java/core/src/main/java/se/lth/cs/docria/Layer.java:compact"]}
{"id": "C106", "title": "Document files by name: closing, with, exceptions, crashes", "statement": "A collection written to a file by name holds, once the file is closed, exactly the documents whose write() returned, however the session went: calls that raised, close() more than once, a `with` statement left by an exception, which goes on to the caller. By default an existing file is refused and untouched; no other file is ever touched. After close() nothing changes the file. At any time before, so also after a crash, what has reached the disk is refused or reads as the first of the documents written, and after flush() as all of them. [False in the code: a write() after close() returns but its document is lost; a write() whose compression fails raises but its document is kept; flush() leaves the blocks in Python's buffer; a constructor that raises leaves a file behind, and has emptied the old one in mode wb; mode ab makes a file whose reader raises TypeError after the old documents.]", "quantifier": "all files and disks, opening modes xb, wb and ab, buffer sizes, block sizes, lossless codecs and their failures, all sequences of write, flush and close, all bodies of with statements", "why_tests_cant": "Sessions are arbitrary sequences of calls with exceptions at any point, and what is on the disk depends on the sizes of blocks relative to Python's buffer.", "anchors": ["py/docria/collection.py:MsgpackDocumentWriter.__init__", "py/docria/collection.py:MsgpackDocumentWriter.write", "py/docria/collection.py:MsgpackDocumentWriter.flush", "py/docria/collection.py:MsgpackDocumentWriter.close", "py/docria/collection.py:MsgpackDocumentWriter.__exit__", "py/docria/collection.py:DocumentIO.write"]}
{"id": "C107", "title": "Block files cut short, read with the Java library", "statement": "A block file cut anywhere in its header is refused by the Java readers. Cut after the header it opens, and next(), skip(), skip(n), count(), skipBlock() and nextBlock() return what they return on the whole blocks before the cut. If the cut is between two blocks the file ends there; if it is inside of a block, the first call that asks for more than these blocks raises: no document is lost, cut or made up without an exception. [False in the code: skip(n) raises when exactly n documents are left before the cut, also skip(0) when none is left.]", "quantifier": "all files of the Python and of the Java writer that the Java reader supports, all blocks including empty ones, every position of the cut, all sequences of calls", "why_tests_cant": "The cut may fall on any byte of any file, in the header, in a length or in the data, and the calls before it come in any order.", "anchors": ["java/core/src/main/java/se/lth/cs/docria/io/DocumentStreamReader.java:DocumentStreamReader", "java/core/src/main/java/se/lth/cs/docria/io/DocumentStreamReader.java:readNextBlock", "java/core/src/main/java/se/lth/cs/docria/io/DocumentStreamReader.java:nextRaw", "java/core/src/main/java/se/lth/cs/docria/io/DocumentStreamReader.java:skip", "java/core/src/main/java/se/lth/cs/docria/io/DocumentStreamReader.java:count", "java/core/src/main/java/se/lth/cs/docria/io/DocumentStreamReader.java:nextBlock", "java/core/src/main/java/se/lth/cs/docria/io/MsgpackDocumentStreamReader.java:MsgpackDocumentStreamReader"]}
{"id": "C108", "title": "The text of the XML export is XML and reads back as its tree", "statement": "XmlCodec.encode_utf8string returns a well-formed XML document (with namespaces). Reading it gives the element tree of XmlCodec.encode_tree: the same tags, attributes and values, in the same order. [False in the code: field names become names of attributes unchecked, so names with spaces, colons or braces, names that start with a digit, and xmlns give text that is not XML, a ValueError or another tree; texts, properties and names with characters that XML does not allow are written as they are.]", "quantifier": "all valid documents without binary data, all options, all trees of elements with attributes", "why_tests_cant": "Any character may stand in any name, text or property; a test would need all field names and all trees.", "anchors": ["py/docria/codec.py:XmlCodec.encode_utf8string", "py/docria/codec.py:XmlCodec.encode_tree", "py/docria/codec.py:XmlCodec._string_encoder"]}
{"id": "C109", "title": "Java writer of block files on a stream that raises", "statement": "Once close() or flush() of a DocumentStreamWriter has returned, the stream holds exactly the documents whose write() returned, whatever was called before and whatever raised. Before that, fewer documents are missing than fit into a block, and what has arrived is refused or is a whole file of the first ones. After an exception of the stream what has arrived reads as the first of the documents handed over. After close() nothing arrives any more and documents are refused. [False in the code: after the stream has raised once, flush() or close() write the block again, so that its documents are read twice or a document is read that nobody wrote; after it has raised while a block was written, no later block is ever written by write(), which takes documents without limit and without an exception; documents written after close() are lost unless they fill a block; without a document the header is not written.]", "quantifier": "all sequences of write, flush and close, all streams that raise at any of their calls after any number of bytes, all block sizes, buffer sizes and lossless codecs that both libraries know", "why_tests_cant": "The stream can raise at any call and at any byte, in any sequence of calls; the damage shows only when the file is read later, by either library.", "anchors": ["java/core/src/main/java/se/lth/cs/docria/io/DocumentStreamWriter.java:DocumentStreamWriter", "java/core/src/main/java/se/lth/cs/docria/io/DocumentStreamWriter.java:flushblock", "java/core/src/main/java/se/lth/cs/docria/io/DocumentStreamWriter.java:write", "java/core/src/main/java/se/lth/cs/docria/io/DocumentStreamWriter.java:flush", "java/core/src/main/java/se/lth/cs/docria/io/DocumentStreamWriter.java:close"]}
{"id": "C110", "title": "Python writer of block files on a file object that raises or writes less than it is given", "statement": "Once close() or flush() of a MsgpackDocumentWriter on a file object has returned, the file holds exactly the documents whose write() returned, whatever was called before and whatever raised. Before that, the file is a whole one in which fewer documents are missing than fit into a block. After an exception of the file object the file reads as the first of the documents handed over, none that was there before being lost. After close() nothing is written any more and documents are refused. [False in the code: the return value of the file object's write is ignored, so that a block of which a raw file writes a part is lost or makes a reader yield a document that nobody wrote, without any exception; after a part of a block has been written and the file object has raised, flush() or close() write the block again behind that part; after it has raised, write() takes documents without limit and writes none; documents written after close() are lost unless they fill a block. Proved: if the file object has written nothing whenever it raises, everything handed over is there once flush() or close() returns, whatever raised before.]", "quantifier": "all sequences of write, flush and close, all file objects that raise or write short at any of their calls after any number of bytes, all block sizes and lossless codecs", "why_tests_cant": "The file object can raise or write a part at any call and at any byte, in any sequence of calls; the damage shows only when the file is read later.", "anchors": ["py/docria/collection.py:MsgpackDocumentWriter.__init__", "py/docria/collection.py:MsgpackDocumentWriter.write", "py/docria/collection.py:MsgpackDocumentWriter.flush", "py/docria/collection.py:MsgpackDocumentWriter.close"]}
{"id": "C111", "title": "Python reader of block files on a file object that returns less than it is asked for", "statement": "A MsgpackDocumentReader on any file object that returns some of what is left whenever it is asked, and nothing only at the end, yields the documents that the file holds, whatever their size, just as on the whole file; if the file is cut off or damaged, it does what it does on the whole file. [False in the code: the constructor takes fewer than four bytes in the first read for a wrong file type, and asks for a position that it does not use, so that a pipe cannot be read; a read that returns nothing although the file goes on ends the reading without an exception; a block or a document larger than the buffer of the msgpack unpacker, 100 MiB, is written without complaint and makes every call of next() raise, so that it and all behind it cannot be read. Proved: on all other file objects, however they divide the bytes, every file, written or damaged, is read just as the whole file is, up to the first object that is too large; from there on BufferFull is raised for ever.]", "quantifier": "all strings of bytes as files, all ways of dividing them into reads, all buffer sizes and codecs, all numbers of calls of next()", "why_tests_cant": "Reads can end at any byte, also within the header of a block or a document, and tests read from files that return all they are asked for; files with blocks of 100 MiB are not made in tests.", "anchors": ["py/docria/collection.py:MsgpackDocumentReader.__init__", "py/docria/collection.py:MsgpackDocumentReader.__next__", "py/docria/collection.py:MsgpackDocumentReader.readblock", "py/docria/collection.py:MsgpackDocumentBlock.__init__"]}
{"id": "C112", "title": "Python boundary writer on a file object that raises or writes short", "statement": "Whatever the calls of write and split on a _BoundaryWriter, and whatever its file object does with what it is given: what a boundary reader finds in the file is, call by call, all of what was given to a call of write that returned, and a beginning of what was given to one that raised. [False in the code: when the file object has written some bytes and raises, or writes less than it is given and returns, the position of the writer is no longer that of the file, and all later markers are in the wrong places: they are read as data, and data as markers; in the second case no call raises. Proved: for all file objects that write nothing when they raise; for the others up to and including the first call that raises; and that the error in the position stays for ever. A block that a MsgpackDocumentWriter writes again after such an exception is in the file one and a half times, and a reader yields a document that nobody wrote.]", "quantifier": "all sequences of calls, all boundaries from 12 to 30, all file objects", "why_tests_cant": "Tests write to files that take everything; the exception has to come between two markers and calls have to follow it.", "anchors": ["py/docria/collection.py:_BoundaryWriter.__init__", "py/docria/collection.py:_BoundaryWriter.write", "py/docria/collection.py:_BoundaryWriter._write_boundary", "py/docria/collection.py:_BoundaryWriter.split", "py/docria/collection.py:MsgpackDocumentWriter.flush"]}
{"id": "C113", "title": "Python boundary reader on a file object that returns less than it is asked for", "statement": "Whatever a boundary writer wrote, and however the file object divides it into reads, if it returns something whenever it is asked: the calls read(n) of a _BoundaryReader return consecutive pieces of the payload, of at most n bytes, and an empty one only at the end. [False in the code: a read of the file object that ends right before a marker or within it, as reads in multiples of 4096 bytes do, makes read(n) raise, the part is lost, and later reads return markers as data; one that ends shortly behind a marker, from the second marker on, makes a later read lose bytes of the payload without an exception, or return more than was asked for. Proved: for all other places where reads may end, and so for all files of one segment, by default up to 1 MiB; that the exception is raised in each case of the first kind; and that seek makes good what went wrong before.]", "quantifier": "all sequences of writes, all boundaries from 12 to 30, all ways of dividing the file into reads, all sequences of calls", "why_tests_cant": "What happens depends on the one byte at which a read ends, and tests read from files that return all they are asked for.", "anchors": ["py/docria/collection.py:_BoundaryReader.__init__", "py/docria/collection.py:_BoundaryReader.read", "py/docria/collection.py:_BoundaryReader.seek", "py/docria/collection.py:_BoundaryReader._to_absolute"]}
{"id": "C114", "title": "Python document reader on a boundary reader", "statement": "What a document writer writes to a _BoundaryWriter, its header and its blocks, in whatever calls of write and split, MsgpackDocumentReader(_BoundaryReader(file)) reads: exactly the documents written, in order, and then StopIteration for ever. More generally the reader does on the boundary file what it does on a file that is the payload, whatever that is. [False in the code: a file that ends where the next marker would be cannot be opened at all, as the unpacker reads ahead to the end of the file and the boundary reader raises there. Proved: for boundaries up to 20, the default, for files that do not end there, have at most 2^b / 4 - 2 full segments, and fit into the unpacker's buffer with a read of 1 MiB to spare.]", "quantifier": "all sequences of writes and splits, all boundaries from 12 to 20, all codecs that undo what was done, all numbers of documents and blocks", "why_tests_cant": "The one test of the two together writes one small file, and what goes wrong depends on the length of the file to the byte.", "anchors": ["py/docria/collection.py:_BoundaryReader.read", "py/docria/collection.py:_BoundaryWriter.write", "py/docria/collection.py:MsgpackDocumentReader.__init__", "py/docria/collection.py:MsgpackDocumentReader.__next__", "py/docria/collection.py:MsgpackDocumentReader.readblock"]}

{"id": "C01", "title": "Varint round trip", "statement": "Appending the varint encoding of any 64-bit value to any buffer and decoding at that position returns exactly that value and advances the cursor by exactly the bytes appended, whatever precedes or follows; the encoding is the shortest possible (1 to 10 bytes).", "quantifier": "every uint64 value, every prefix buffer, every trailing byte string", "why_tests_cant": "2^64 values times arbitrary surroundings; ten hand-unrolled cases per direction", "anchors": ["internal/pb/varint.go: EncodeVarInt, DecodeVarInt"]}
{"id": "C02", "title": "Varint decoder accepts exactly the base-128 numbers that fit", "statement": "Decoding at a position succeeds iff the bytes there begin with a terminated base-128 little-endian group of at most 10 bytes whose value fits in 64 bits (minimal or padded); it then returns that value and the group's length. Otherwise it panics; it never reads outside the slice and never returns a wrong value.", "quantifier": "every byte slice, every start position", "why_tests_cant": "all byte strings, including padded encodings that the encoder itself never emits but the embedded-length writer does", "anchors": ["internal/pb/varint.go: DecodeVarInt"]}
{"id": "C03", "title": "ZigZag is a bijection that keeps small magnitudes small", "statement": "Zigzag-encoding maps n>=0 to 2n and n<0 to -2n-1 and decoding inverts it in both directions, including the minimum int64.", "quantifier": "every int64 and every uint64", "why_tests_cant": "2^64 inputs; sign/shift mistakes appear only at extremes", "anchors": ["internal/pb/varint.go: EncodeZigZag, DecodeZigZag"]}
{"id": "C04", "title": "Packed lists round trip", "statement": "Every packed list encoder/decoder pair (I32, U32, S32, S64 delta, U64) returns the list that was encoded, for every list of values, including delta lists whose differences wrap around 64 bits, and leaves the cursor just after the field.", "quantifier": "every list of int32/uint32/int64/uint64 of any length, any surrounding bytes", "why_tests_cant": "lists of unbounded length and wrap-around deltas", "anchors": ["internal/pb/32.go: EncodeI32Packed, DecodeI32Packed, EncodeS32Packed, DecodeS32Packed, EncodeU32PackedFunc, DecodeU32Packed", "internal/pb/64.go: EncodeS64PackedDelta, EncodeS64PackedDeltaFunc, DecodeS64PackedDelta, EncodeU64Packed, DecodeU64Packed"]}
{"id": "C05", "title": "Zero-terminated delta lists stop exactly at the first repeated value", "statement": "Decoding a zero-terminated delta list written by the encoder and followed by any bytes returns the longest prefix of the list containing no leading 0 and no two equal neighbours; hence it returns the whole list iff no value equals its predecessor (the first value being compared with 0). A list cut before the end of its terminator panics.", "quantifier": "every int64 list, every trailing byte string", "why_tests_cant": "the documented restriction ('sequential duplicate values will not work') must be exact for all lists", "anchors": ["internal/pb/64.go: EncodeS64PackedDeltaZero, DecodeS64PackedDeltaZero", "internal/pb/doc.go"]}
{"id": "C06", "title": "Embedded sub-messages carry the right length or panic", "statement": "Embedding a payload with any of the four reservation sizes appends the field id, a fixed-width length, then the payload, such that the ordinary length-prefixed reader returns exactly the payload; it panics iff the payload is at least 128, 16384, 2097152 or 268435456 bytes respectively.", "quantifier": "every field id, payload and buffer; all four sizes", "why_tests_cant": "boundary between success and panic for all payload lengths", "anchors": ["internal/pb/embed.go: Embed128, Embed16384, Embed2097152, Embed268435456"]}
{"id": "C07", "title": "Length-prefixed bytes and strings round trip", "statement": "A byte string or string written with its length (with or without a field id) is read back exactly, and the cursor ends just after it.", "quantifier": "every byte string, every surrounding bytes", "why_tests_cant": "unbounded inputs", "anchors": ["internal/pb/buffer.go: EncodeBuffer, EncodeIdBuffer, ReadBytes, DecodeBytes, EncodeString, DecodeString"]}
{"id": "C08", "title": "A field length that overruns its message is rejected", "statement": "If a length prefix inside a message promises more bytes than the message has left, reading panics instead of returning bytes belonging to whatever follows the message.", "quantifier": "every message and enclosing buffer", "why_tests_cant": "needs the capacity semantics of Go slices for all malformed inputs", "anchors": ["internal/pb/buffer.go: ReadBytes, SkipBytes"]}
{"id": "C09", "title": "Parsing terminates", "statement": "Parsing any byte string as any of the message types either returns or panics after at most one iteration per input byte; it never loops forever.", "quantifier": "every byte string, every message type", "why_tests_cant": "non-termination cannot be observed by a finite test; depends on adversarial lengths", "anchors": ["internal/pb/buffer.go: SkipBytes", "internal/t/*.go: Read*"]}
{"id": "C10", "title": "String table message round trip", "statement": "Writing a string table and reading it back yields the same strings in the same order.", "quantifier": "every list of strings", "why_tests_cant": "unbounded", "anchors": ["internal/t/string_table.go"]}
{"id": "C11", "title": "Way message round trip", "statement": "Writing a way and reading it back yields the same id, keys, values and refs, or the write panics because a section is 16384 bytes or more.", "quantifier": "every way", "why_tests_cant": "unbounded lists, all int64 refs", "anchors": ["internal/t/way.go"]}
{"id": "C12", "title": "Relation message round trip", "statement": "Writing a relation and reading it back yields the same id, keys, vals, roles, members and member types, or the write panics on an oversized section.", "quantifier": "every relation", "why_tests_cant": "unbounded lists", "anchors": ["internal/t/relation.go"]}
{"id": "C13", "title": "Dense nodes message round trip", "statement": "Writing dense nodes and reading them back yields the same ids, latitudes, longitudes and key/values, or the write panics on an oversized section.", "quantifier": "every dense node group", "why_tests_cant": "unbounded lists", "anchors": ["internal/t/dense_nodes.go"]}
{"id": "C14", "title": "Primitive block round trip under every reader option", "statement": "Writing a parsed block and reading it again with the same reader options yields the same block: decoded sections are equal and skipped sections are byte-for-byte identical, including granularities and offsets at and away from their defaults.", "quantifier": "every primitive block and every combination of skip options", "why_tests_cant": "product of unbounded structures and 16 option settings", "anchors": ["internal/t/primitive_block.go", "internal/t/primitive_group.go", "internal/t/reader.go"]}
{"id": "C15", "title": "Blob and blob header round trip", "statement": "A blob (raw, raw size, zlib data) and a blob header (type, size) written and read back are unchanged, except that empty sections are read back as absent.", "quantifier": "every blob and header", "why_tests_cant": "unbounded", "anchors": ["internal/t/blob.go: ReadBlob, Write", "internal/t/blob_header.go"]}
{"id": "C16", "title": "Skip options only skip", "statement": "Reading a block with some sections skipped agrees with reading it in full: unskipped sections are identical, and each skipped section is kept as raw bytes which, parsed, give the section the full read produces.", "quantifier": "every byte string on which the full read succeeds, every option combination", "why_tests_cant": "relates two reader configurations on all inputs", "anchors": ["internal/t/primitive_block.go: ReadPrimitiveBlock", "internal/t/primitive_group.go: ReadPrimitiveGroup"]}
{"id": "C17", "title": "Unknown fields are never silently ignored", "statement": "A message whose next field is not one the reader knows (for that message type and wire type), or a group containing non-dense nodes, makes the reader panic.", "quantifier": "every message, every unknown id", "why_tests_cant": "all 64-bit field ids", "anchors": ["internal/t/*.go: Read* default cases"]}
{"id": "C18", "title": "String indices and the string table agree", "statement": "After finalizing, every string that was added has an index, the table entry at that index is that string, distinct strings have distinct indices, and asking for a string never added panics.", "quantifier": "every sequence of added strings", "why_tests_cant": "arbitrary histories", "anchors": ["internal/t/string_table_builder.go: AddString, AddMap, Finalize, GetIndex, ToStringTable"]}
{"id": "C19", "title": "String table order is by frequency then bytes, independent of insertion order", "statement": "The finalized table lists the non-empty strings by descending number of additions, ties in byte order, and is therefore the same for any reordering of the additions (in particular any map iteration order).", "quantifier": "every sequence of additions and every permutation of it", "why_tests_cant": "map iteration order is random; ties everywhere", "anchors": ["internal/t/string_table_builder.go: Finalize"]}
{"id": "C20", "title": "Index 0 is always the empty string", "statement": "After finalizing, index 0 of the table is the empty string (dense node key/values use 0 as a delimiter).", "quantifier": "every sequence of additions, including additions of the empty string itself", "why_tests_cant": "frequency counter wraps at 2^32 only when the empty string is added", "anchors": ["internal/t/string_table_builder.go: NewStringTableBuilder, AddString"]}
{"id": "C21", "title": "Nodes survive block assembly", "statement": "Assembling nodes into a block and extracting them yields the same nodes in the same order: same id, same tags, and coordinates equal up to truncation to 100 nanodegrees.", "quantifier": "every list of nodes with any tags", "why_tests_cant": "all tag maps incl. empty strings; all coordinates", "anchors": ["internal/t/primitive_block.go: MakePrimitiveBlock", "internal/t/primitive_block_nodes.go", "internal/t/dense_nodes.go: GetKeyVals"]}
{"id": "C22", "title": "Ways and relations survive block assembly", "statement": "Assembling ways and relations into a block and extracting them yields the same ids, tags, node refs, roles, members and member types in the same order.", "quantifier": "every list of ways and relations, with any tags and roles (including empty roles)", "why_tests_cant": "unbounded", "anchors": ["internal/t/primitive_block_ways.go", "internal/t/primitive_block_relations.go", "internal/t/primitive_block.go: MakePrimitiveBlock"]}
{"id": "C23", "title": "Block assembly is deterministic", "statement": "The assembled block does not depend on the order in which tag maps happen to be iterated.", "quantifier": "every pair of iteration orders of every tag map", "why_tests_cant": "Go randomizes map iteration", "anchors": ["internal/t/primitive_block.go: MakePrimitiveBlock", "internal/t/string_table_builder.go: ToKeyVals, ToKeyValLinear"]}
{"id": "C24", "title": "Dense key/values are attributed to the right node", "statement": "For a well-formed key/value stream, asking for node i returns exactly the i-th delimited group, whichever nodes were asked for before (cached or not). A node behind the last terminator, or a stream with a key that has no value, panics.", "quantifier": "every well-formed stream and every sequence of queries", "why_tests_cant": "cache state depends on query history", "anchors": ["internal/t/dense_nodes.go: GetKeyVals"]}
{"id": "C25", "title": "Morton codes are a bijection", "statement": "Encoding a pair of 32-bit values puts the first in the even bits and the second in the odd bits; decoding recovers both, and encoding what was decoded gives back the code.", "quantifier": "all 2^64 pairs / codes", "why_tests_cant": "2^64 inputs", "anchors": ["internal/morton/morton.go: Encode, Decode"]}
{"id": "C26", "title": "Locations are marked and recoverable", "statement": "The location stored for a node is always negative as int64 (hence never 0 and never a valid id), and decoding it returns the longitude and latitude exactly whenever latitude is in [-2^30, 2^30) ten-millionths of a degree, which includes [-90,90] degrees.", "quantifier": "every int32 longitude and every latitude in range", "why_tests_cant": "2^63 inputs", "anchors": ["internal/morton/morton.go: Encode, DecodeLocation", "cmd/nodeindex/indexer/nodeindexer_worker.go: Worker", "ENCODING.md"]}
{"id": "C27", "title": "Count/offset packing never corrupts", "statement": "Packing a count and an offset either panics or unpacks to exactly that count and offset.", "quantifier": "every pair of uint64", "why_tests_cant": "the boundary count 2^24", "anchors": ["internal/nodeindex/count_offset.go: NewCountOffset, Count, Offset"]}
{"id": "C28", "title": "Node lookup is exact and hint-independent", "statement": "On a sorted index, looking up an id with any non-negative hint finds it iff some range contains it and its slot is non-zero, and returns that slot's location; the result does not depend on the hint and never panics.", "quantifier": "every well-formed index, every id, every hint", "why_tests_cant": "binary search with hint over unbounded indexes", "anchors": ["internal/nodeindex/nodesubindex.go: FindNode", "internal/nodeindex/index_element.go"]}
{"id": "C29", "title": "Hints can be chained", "statement": "Starting from hint 0 and feeding each lookup the previous lookup's hint, every lookup in any sequence gives the same answer as a fresh lookup.", "quantifier": "every sequence of ids", "why_tests_cant": "history-dependent state", "anchors": ["internal/nodeindex/nodesubindex.go: FindNode", "cmd/rewritenodes/rewriter/noderewriter_worker.go"]}
{"id": "C30", "title": "Every lookup is counted once", "statement": "Each lookup increments exactly one of the four hit/miss counters by one, so after any set of concurrent lookups the four counters sum to the number of lookups.", "quantifier": "every multiset and interleaving of lookups", "why_tests_cant": "concurrent atomics", "anchors": ["internal/nodeindex/nodesubindex.go: FindNode", "internal/wayindex/subindex.go: FindLocations"]}
{"id": "C31", "title": "Passes over the node index cover it", "statement": "The sub-indexes for passes 0..n-1 can all be created and together contain every range of the index exactly once, in order.", "quantifier": "every index, every pass count n>=1", "why_tests_cant": "all pass counts and element sizes; integer division remainders", "anchors": ["internal/nodeindex/nodeindex.go: SubIndex"]}
{"id": "C32", "title": "Passes respect the memory target", "statement": "With the pass count computed from a memory target, each pass's ranges cover at most target bytes of locations plus one range.", "quantifier": "every index and target", "why_tests_cant": "integer arithmetic over all sizes", "anchors": ["cmd/rewritenodes/rewritenodes.go: main", "internal/nodeindex/nodeindex.go: SubIndex"]}
{"id": "C33", "title": "The node index answers with the source's locations", "statement": "Indexing blocks of nodes with strictly ascending ids and looking up any id in the resulting index returns the node's encoded location if it was present and 'not found' otherwise.", "quantifier": "every sequence of blocks and groups with ascending ids, every id", "why_tests_cant": "end-to-end over all inputs", "anchors": ["cmd/nodeindex/indexer/nodeindexer_worker.go: Worker", "cmd/nodeindex/indexer/nodeindexer_writer.go: Output", "internal/nodeindex/nodeindex.go: NewNodeIndex"]}
{"id": "C34", "title": "The node index file has the documented layout", "statement": "A completed run leaves exactly: version, element count, 16 bytes per element, 8 bytes per location, and loading that file yields those elements and locations, however the copy of the location file is chunked.", "quantifier": "every input and every read/write chunking", "why_tests_cant": "chunking schedules; all sizes", "anchors": ["cmd/nodeindex/indexer/nodeindexer_writer.go: Output", "internal/nodeindex/nodeindex.go: NewNodeIndex", "ENCODING.md"]}
{"id": "C35", "title": "A crashed node indexing run is never mistaken for an index", "statement": "If the process dies at any point before the final header write, opening the output file as a node index panics.", "quantifier": "every input, every crash point (including inside a write)", "why_tests_cant": "all crash points", "anchors": ["cmd/nodeindex/indexer/nodeindexer_writer.go: Output", "internal/nodeindex/nodeindex.go: NewNodeIndex"]}
{"id": "C36", "title": "A cancelled indexing run never leaves a valid-looking index", "statement": "If the run is cancelled, the output file is not accepted as a complete index with missing locations.", "quantifier": "every input, every cancellation point", "why_tests_cant": "cancellation timing", "anchors": ["cmd/nodeindex/indexer/nodeindexer_writer.go: Output", "cmd/wayindex/wayindexer/wayindexer_writer.go: Output"]}
{"id": "C37", "title": "Way id/offset packing never corrupts", "statement": "Packing a non-negative way id and offset either panics or unpacks to exactly that id and offset.", "quantifier": "every pair of non-negative int64", "why_tests_cant": "boundaries 2^31 and 2^33", "anchors": ["internal/wayindex/indexdata.go: MakeIndexData, WayID, Offset"]}
{"id": "C38", "title": "Way lookup is exact and hint-independent", "statement": "On an index with strictly ascending way ids, looking up an id with any non-negative hint finds it iff it is present and returns that way's stored locations, independent of the hint.", "quantifier": "every well-formed index, id and hint", "why_tests_cant": "unbounded indexes", "anchors": ["internal/wayindex/subindex.go: FindLocations"]}
{"id": "C39", "title": "Location blocks are aligned and never shared", "statement": "Padding always ends on a multiple of the alignment, adds between 1 and alignment bytes of zeros, so each way's data starts on its own boundary.", "quantifier": "every length and alignment", "why_tests_cant": "all sizes", "anchors": ["cmd/wayindex/wayindexer/wayindexer_worker.go: padToAlignment"]}
{"id": "C40", "title": "The way index answers with the source's refs", "statement": "Indexing ways with strictly ascending positive ids below 2^31 and looking up any way returns its refs with consecutive repeats (and leading zeros) removed; absent ways are not found.", "quantifier": "every non-empty sequence of blocks of ways needing at most 2^33 location blocks, every alignment shift below 62, every id", "why_tests_cant": "end-to-end over all inputs", "anchors": ["cmd/wayindex/wayindexer/wayindexer_worker.go", "cmd/wayindex/wayindexer/wayindexer_writer.go", "internal/wayindex/wayindex.go: NewWayIndex"]}
{"id": "C41", "title": "Passes over the way index cover it", "statement": "The sub-indexes for passes 0..n-1 can all be created and together contain every way of the index.", "quantifier": "every index, every n>=1", "why_tests_cant": "integer division remainders", "anchors": ["internal/wayindex/wayindex.go: SubIndexWithScaledPass"]}
{"id": "C42", "title": "A crashed way indexing run is never used", "statement": "If the process dies before the final header write, using the output file (opening it and taking any pass) panics.", "quantifier": "every input, every crash point", "why_tests_cant": "all crash points", "anchors": ["cmd/wayindex/wayindexer/wayindexer_writer.go: Output", "internal/wayindex/wayindex.go"]}
{"id": "C43", "title": "The initial relation stream lists each relation's ways", "statement": "The first relation pass writes, per relation in file order, its id, the number of way members and the negated way ids in member order.", "quantifier": "every relation whose member and type lists have equal length", "why_tests_cant": "unbounded", "anchors": ["cmd/relindex/relindexerinit/relindexer_worker.go", "cmd/relindex/relindexerinit/relindexer_writer.go"]}
{"id": "C44", "title": "The relation index lists each way's locations", "statement": "After all passes every way member of every relation appears in order with its locations from the way index, or with count 0 if the way is absent, independent of the number of passes.", "quantifier": "every relation stream, way index and pass count", "why_tests_cant": "multi-pass composition over all inputs", "anchors": ["cmd/relindex/relindex.go: rewrite, main"]}
{"id": "C45", "title": "Relation pass files are chained and cleaned up", "statement": "With n>=1 passes each pass reads what the previous one wrote, the last writes the requested output, no file is removed while still needed and no temporary file remains.", "quantifier": "every pass count", "why_tests_cant": "all n", "anchors": ["cmd/relindex/relindex.go: main, makePassFilename"]}
{"id": "C46", "title": "Node rewriting replaces exactly the known refs", "statement": "One rewriting pass replaces each non-negative ref that the sub-index resolves by its location and keeps every other ref, preserving the number and order of refs and everything else that the readers keep (the ways' info sections are dropped, as the way reader skips them).", "quantifier": "every block and sub-index", "why_tests_cant": "unbounded", "anchors": ["cmd/rewritenodes/rewriter/noderewriter_worker.go: Worker"]}
{"id": "C47", "title": "The number of passes does not change the result", "statement": "Rewriting with n passes gives the same refs as rewriting with one pass.", "quantifier": "every input, index and n", "why_tests_cant": "multi-pass composition", "anchors": ["cmd/rewritenodes/rewritenodes.go: main", "internal/nodeindex/nodeindex.go: SubIndex"]}
{"id": "C48", "title": "Rewrite pass files are chained and cleaned up", "statement": "With n>=1 passes each pass reads what the previous one wrote, the last writes the requested output, no file is removed while still needed and no temporary file remains.", "quantifier": "every n", "why_tests_cant": "all n", "anchors": ["cmd/rewritenodes/rewritenodes.go: main, makePassFilename"]}
{"id": "C49", "title": "Tag filtering keeps exactly the wanted nodes and tags", "statement": "A node survives iff at least one of its tags is neither in the deletion list nor starts with a deletion prefix; survivors keep exactly those tags, in order; ways and relations are unchanged.", "quantifier": "every block, every tag map", "why_tests_cant": "unbounded", "anchors": ["cmd/tagfilter/tagfilterer/tagfilterer_worker.go: Worker, keepTag"]}
{"id": "C50", "title": "Tag filtering accounts for every node and block", "statement": "Kept plus dropped equals the nodes read; every input block produces exactly one output block with the same index; the 'pending nodes' panic is unreachable.", "quantifier": "every sequence of blocks per worker", "why_tests_cant": "history of blocks", "anchors": ["cmd/tagfilter/tagfilterer/tagfilterer_worker.go: Worker"]}
{"id": "C51", "title": "Decompression preserves content", "statement": "The decompressed file has the same blocks, in the same order, with the same types, and each block's payload equals the original block's uncompressed payload.", "quantifier": "every input file", "why_tests_cant": "unbounded; empty payloads", "anchors": ["cmd/decompress/decompressor/decompressor_worker.go", "cmd/decompress/decompressor/decompressor_writer.go"]}
{"id": "C52", "title": "Inflating does not depend on read chunking", "statement": "However the decompressor delivers its data in chunks, the returned payload is the stream's bytes when the stream is exactly the declared size; a shorter stream panics.", "quantifier": "every stream and every chunk schedule", "why_tests_cant": "chunk schedules", "anchors": ["internal/t/blob.go: decodeZLib"]}
{"id": "C53", "title": "A block file is split exactly at its frames", "statement": "Splitting a file into blocks yields the framed blocks in order with indices 0,1,2,...; concatenating frames written by the writers and splitting them gives back the blocks; trailing or truncated data panics.", "quantifier": "every file / every list of blocks", "why_tests_cant": "unbounded", "anchors": ["internal/pbf/process.go: processFileWork", "cmd/rewritenodes/rewriter/noderewriter_writer.go", "cmd/tagfilter/tagfilterer/tagfilterer_writer.go"]}
{"id": "C54", "title": "Reordering restores file order", "statement": "Whatever order blocks 0..n-1 arrive in, they leave in index order, each exactly once; if an index is missing when the input closes, it panics.", "quantifier": "every arrival permutation", "why_tests_cant": "n! orders", "anchors": ["internal/pbf/reorder.go: reorder"]}
{"id": "C55", "title": "Parallel processing equals sequential processing", "statement": "For any number of workers and any interleaving, the writer receives exactly the per-block results in file order.", "quantifier": "every worker count, file, interleaving", "why_tests_cant": "unbounded interleavings", "anchors": ["internal/pbf/process.go: processFileWork", "internal/pbf/reorder.go"]}
{"id": "C56", "title": "Processing never deadlocks", "statement": "With at least one worker, every run, cancelled or not, reaches completion: some step is always possible and every step makes progress.", "quantifier": "every worker count >= 1, interleaving and cancellation point", "why_tests_cant": "liveness over all schedules", "anchors": ["internal/pbf/process.go"]}
{"id": "C57", "title": "Cancellation delivers a prefix", "statement": "If cancelled, the writer receives exactly the results of a prefix of the file's blocks, in order, and shutdown completes without the 'not all blocks processed' panic.", "quantifier": "every cancellation point and interleaving", "why_tests_cant": "timing", "anchors": ["internal/pbf/process.go", "internal/pbf/reorder.go"]}
{"id": "C58", "title": "The input mapping outlives its users", "statement": "The input file is unmapped only after every worker, the reorderer and the writer have finished.", "quantifier": "every interleaving", "why_tests_cant": "use-after-unmap races", "anchors": ["internal/pbf/process.go"]}
{"id": "C59", "title": "Progress is monotone and bounded", "statement": "The reported position never decreases, never exceeds the file size, and equals it when all blocks were sent.", "quantifier": "every file", "why_tests_cant": "all inputs", "anchors": ["internal/pbf/process.go: At, Max"]}
{"id": "C60", "title": "Concurrent maximum is the maximum", "statement": "Any number of concurrent maximum updates leave the variable at the maximum of its initial value and all arguments, and every update completes if it runs alone from any point.", "quantifier": "every interleaving of any number of updates", "why_tests_cant": "CAS races", "anchors": ["cmd/entitycount/entitycount.go: atomicSetMaximum"]}
{"id": "C61", "title": "Entity counts are independent of worker distribution", "statement": "The block, node, way, relation and ref totals and maxima printed equal those of the file, however blocks are distributed over workers and however their final updates interleave.", "quantifier": "every distribution and interleaving", "why_tests_cant": "schedules", "anchors": ["cmd/entitycount/entitycount.go: countEntities", "cmd/blockcount/blockcount.go: countBlocks"]}
{"id": "C62", "title": "Pooled buffers are exclusive and input memory never enters the pool", "statement": "A buffer borrowed from the pool has exactly the requested length and is held by one borrower at a time; buffers wrapping input memory are never pooled.", "quantifier": "every sequence of gets/puts by any holders, any pool eviction", "why_tests_cant": "histories", "anchors": ["internal/pool/bytebuffer.go"]}
{"id": "C63", "title": "Worker display is eventually exact", "statement": "After any interleaving of track/untrack with refreshes, once no update is in flight one refresh makes the displayed workers equal the tracked workers.", "quantifier": "every interleaving", "why_tests_cant": "races between version and list", "anchors": ["internal/tracker/worker_tracker.go", "internal/tracker/widget_workers.go: RefreshStates"]}
{"id": "C64", "title": "Whole buffers are written despite short writes", "statement": "Writing a buffer appends exactly its bytes to the file for every schedule of short writes, and panics on error or on a zero-byte write.", "quantifier": "every short-write schedule", "why_tests_cant": "schedules", "anchors": ["internal/iio/wrappers.go: FWrite, FCopy, FWriteSliceI64"]}
{"id": "C65", "title": "Entity search prints exactly the requested entities", "statement": "The entities printed are exactly those whose id is in the requested list, in file order per block.", "quantifier": "every block and id list", "why_tests_cant": "unbounded", "anchors": ["cmd/entityfind/entityfind.go"]}
{"id": "C66", "title": "Index dump self-check never reports a mismatch", "statement": "On a well-formed index, the dump's extract/search comparison never prints MISMATCH, and the way dump never reports a failed search for the full index.", "quantifier": "every well-formed index", "why_tests_cant": "unbounded", "anchors": ["cmd/dumpnodeindex/dumpnodeindex.go", "cmd/dumpwayindex/dumpwayindex.go"]}
{"id": "C67", "title": "Progress bar markup preserves the text", "statement": "The marked-up progress line, with markup interpreted, shows exactly the padded text.", "quantifier": "every text, width and fraction", "why_tests_cant": "all strings incl. '%'", "anchors": ["internal/ui/format.go"]}
{"id": "C68", "title": "Reinterpreting slices preserves values", "statement": "Viewing bytes as 64-bit words or element structs and back preserves the bytes of whole elements and drops only a trailing partial element.", "quantifier": "every byte slice", "why_tests_cant": "unbounded", "anchors": ["internal/iunsafe/slices.go"]}
{"id": "C69", "title": "End to end: relation geometry", "statement": "Running nodeindex, rewritenodes, wayindex and relindex on a sorted source gives, for each relation and each way member present, the encoded locations of the way's nodes that exist (others kept as ids), without consecutive repeats.", "quantifier": "every sorted source", "why_tests_cant": "composition of four programs", "anchors": ["cmd/nodeindex", "cmd/rewritenodes", "cmd/wayindex", "cmd/relindex"]}
{"id": "C70", "title": "Extraction gives exactly the entities of a block", "statement": "From every block whose string indices are in range, exactly its nodes (plain and dense), ways and relations are extracted, in order, with coordinate offset + granularity*value, metadata and tags as in the block (a repeated key keeps its last value); an out-of-range string index panics.", "quantifier": "every block", "why_tests_cant": "unbounded blocks, dense layouts and string tables", "anchors": ["internal/t/primitive_block_nodes.go: ToNodes", "internal/t/primitive_block_ways.go: ToWays", "internal/t/primitive_block_relations.go: ToRelations"]}
{"id": "C71", "title": "A block parses the same wherever it lies in memory", "statement": "If a message (string table, dense nodes, way, relation, primitive block, blob header, blob) parses when its bytes are alone, it parses to the same content with anything behind it in memory (the rest of the mapped file, or an earlier user's bytes in a pooled buffer), whichever sections are skipped, into whichever pooled buffer it is inflated and however zlib delivers the data. Without that premise it is false: a cut-short list is completed from the memory behind it.", "quantifier": "every byte sequence, every memory content behind it, every reader option, every pooled buffer and zlib chunking", "why_tests_cant": "unbounded memory contents; depends on slice capacities that tests never vary", "anchors": ["internal/t:ReadPrimitiveBlock,ReadWay,ReadRelation,ReadDenseNodes,ReadStringTable", "internal/t/blob.go:ReadBlob", "internal/t/blob_header.go: ReadBlobHeader", "internal/pb/buffer.go"]}
{"id": "C72", "title": "What an interrupted run leaves behind", "statement": "If a command dies at any moment (kill, panic of any goroutine, full disk), its output file is as before the run, or an initial part of the complete output. A partial node or way index is rejected when opened unless every batch had been written and the final header write had begun; a partial block file cannot be read unless cut exactly between two blocks, and then shows exactly the first blocks of the complete output.", "quantifier": "every input, schedule, worker count, cancellation and crash point including torn writes", "why_tests_cant": "crash points and schedules", "anchors": ["internal/pbf/process.go", "cmd/rewritenodes", "cmd/decompress", "cmd/tagfilter", "cmd/nodeindex", "cmd/wayindex", "cmd/relindex"]}
{"id": "C73", "title": "No other file is touched", "statement": "At no moment of a run, complete, cancelled or interrupted, is any file changed other than the output and its documented temporary/pass files; in particular the input and the index are unchanged if their names differ from those (and the input is lost if it is also the output).", "quantifier": "every command, input, file system, cancellation and crash point", "why_tests_cant": "all file systems and crash points", "anchors": ["cmd/*", "internal/iio/wrappers.go"]}
{"id": "C74", "title": "A cancelled run ends normally with the complete output of the first blocks", "statement": "When the user cancels a command, every block handed to the workers before is still processed: decompress and tagfilter end normally and leave a complete, readable file of what a full run makes of the first k blocks; relindex goes on and leaves the complete relation index of those blocks; rewritenodes goes on with its later passes, each cut short in its turn, and leaves the rewritten first blocks (or panics if a pass got no block); nodeindex and wayindex end normally with an index that lists the entities of the first blocks and holds no location at all, in which no lookup finds anything.", "quantifier": "every input file, every moment of cancellation, number of workers, schedule, zlib chunking, pass count", "why_tests_cant": "The moment of cancellation and the schedule range over unboundedly many interleavings.", "anchors": ["internal/pbf/process.go: processFileWork", "cmd/rewritenodes/rewritenodes.go: Run", "cmd/nodeindex/indexer/nodeindexer_writer.go: Output", "cmd/wayindex/wayindexer/wayindexer_writer.go: Output", "cmd/relindex/relindex.go"]}
{"id": "C75", "title": "Timing lookups does not change their answers", "statement": "With the timing option of rewritenodes, whatever the factor and whatever the clock says, a lookup that returns gives the answer it gives without timing, and a pass that ends writes the same file; with a factor of at least 1.12 (or infinite, negative, NaN) every measurement ends in one of the 200 counters, so the pass ends whenever the untimed one does. (For factors from 0 to 1 a measured lookup never returns, for factors up to 1.0625 a slow lookup panics.)", "quantifier": "every factor, every clock reading, every lookup, every float64 rounding", "why_tests_cant": "Clock readings and rounding range over 2^64 values per lookup and cannot be controlled by tests.", "anchors": ["internal/nodeindex/nodesubindex.go: FindNode", "internal/nodeindex/nodeindex.go: NewNodeIndex", "cmd/rewritenodes/rewriter/noderewriter_worker.go"]}
{"id": "C76", "title": "Workers that share buffers do not disturb each other", "statement": "While the workers of a command run at the same time, taking buffers from the shared pool, letting zlib write into them piece by piece, reading them byte by byte and giving them back, each worker's answer for a block is the one it would compute alone from that block; every block is answered once; if nothing panics when each works alone nothing panics; and no run gets stuck or goes on for ever.", "quantifier": "every command's worker function, every way of reading, every file, number of workers, interleaving down to single byte reads, zlib chunking, pool choice and eviction", "why_tests_cant": "Data races between workers appear only in particular interleavings of memory accesses.", "anchors": ["internal/pool/bytebuffer.go: Get, Put", "internal/t/blob.go: GetRawData", "internal/pbf/process.go: ProcessFileAsync", "cmd/*/*_worker.go"]}
{"id": "C77", "title": "The same inputs give the same output", "statement": "Running a command twice on the same input files, over whatever an earlier run left in its output and temporary files, with any numbers of workers, schedules, zlib chunkings and pool contents, ends the same way both times and writes the same bytes; provided no block inflates to more than it declares, and (except for decompress) no data block reads on behind its end. Without the provisos it is false: such a block can end in success or panic, and in different index contents, from run to run.", "quantifier": "every input file, earlier file system content, pair of schedules, worker counts, chunkings and pool contents", "why_tests_cant": "Nondeterminism shows only in particular schedules and pool histories.", "anchors": ["internal/pbf/process.go: processFileWork", "internal/t/blob.go: GetRawData", "cmd/decompress", "cmd/tagfilter", "cmd/nodeindex", "cmd/wayindex", "cmd/relindex", "cmd/rewritenodes"]}
{"id": "C78", "title": "A command starts exactly with acceptable arguments", "statement": "A command starts exactly when its command line parses, has no stray words and its options fit together (a memory profile rate needs a memory profile; a part of an index is given by a number below the number of parts, both or neither); otherwise it exits, with 0 and the help on standard output exactly when the help was asked for, and with 1 and all faults on standard error else. Part i of c of a complete node index is then dumped exactly if the index is not too small for c parts, and what is printed is what the options ask for: that part, the ranges from the start to before the end, with locations and searches exactly if asked for. (The way index dump accepts negative numbers and then divides by zero; numbers of workers and passes are not checked.)", "quantifier": "every parse result, every set of options, every complete node index", "why_tests_cant": "All combinations of options and indexes.", "anchors": ["cmd/*/args.go: parseArgs", "internal/args/help.go: IsHelp", "internal/system/args.go: Validate", "internal/ui/args.go: Validate", "cmd/dumpnodeindex/dumpnodeindex.go", "cmd/dumpwayindex/dumpwayindex.go"]}
{"id": "C79", "title": "What the display says about a worker or writer is true", "statement": "Whenever the display is redrawn, the activity shown for a worker or writer is the one it is engaged in at a moment of the redraw (or the one it is just changing to or from), and a block number shown is that of a block it had in hand during the redraw; the way shown as i of n is a way of that block unless a new block arrives during the redraw; the amount copied is that of the pieces copied so far, it never exceeds the total shown, and that total is the size of the location file; the counts shown for tagfilter are the nodes kept, the nodes dropped, and the blocks dropped so far. (Not so: the index writers show the number of ranges of a block as its number, and tagfilter shows the previous block's number for a header that is not the first block.)", "quantifier": "every sequence of blocks, every worker and writer, every moment at which each piece of the state is read", "why_tests_cant": "The redraw runs concurrently with the worker and reads several atomics one after the other.", "anchors": ["cmd/*/*/state/*.go", "cmd/*/*/widget/*.go", "cmd/*/*/*_worker.go", "cmd/*/*/*_writer.go"]}
{"id": "C80", "title": "The screen comes up, hears every key and goes away", "statement": "With a positive refresh interval the interface never blocks: until Stop has returned the program can always take a step of its own, and takes only boundedly many per tick and key; when Stop has returned the event loop and the clock have ended and nothing is drawn or handled any more. Keys are handled in the order pressed and none is lost; the command is cancelled exactly when ctrl-C was handled, and panics only after ctrl-A (or with a negative interval, with which every run panics). The layout is always that of the replacement handled last, one the command asked for, the last widget taking the room left. (Two replacements can be handled in the wrong order, and the last may never be.)", "quantifier": "every schedule of the goroutines, every sequence of ticks and keys, every queue size, every command's sequence of screens", "why_tests_cant": "Deadlocks and lost keys depend on the interleaving of five kinds of goroutines.", "anchors": ["internal/ui/ui.go: NewUI, SetView, HandleEvent, ReplaceWidgets, Stop", "internal/ui/debugui.go", "internal/ui/event_update.go", "cmd/rewritenodes/rewritenodes.go"]}
{"id": "C81", "title": "Running a program on its own output changes nothing", "statement": "Decompressing a decompressed file, rewriting the nodes of a rewritten file with the same index and memory target (or any memory target, if the passes of the first run covered the index), and filtering a filtered file each reproduce the file byte for byte, whatever the numbers of workers, interleavings, zlib chunkings and file names of the two runs; the second run cannot panic, and tagfilter drops nothing the second time. Conditions: no block of the file to decompress is empty; no tag or role in the file to filter is the empty string (else it is false: a kept node can lose its tag in the first run and be dropped in the second), and something is left of it.", "quantifier": "every well-formed input file, index, memory target, worker counts, schedules and chunkings of both runs", "why_tests_cant": "Byte-for-byte equality must hold for every file and every pair of schedules.", "anchors": ["cmd/decompress", "cmd/rewritenodes", "cmd/tagfilter", "internal/t/primitive_block.go: MakePrimitiveBlock", "internal/t/primitive_block.go: Write"]}
{"id": "C82", "title": "The number of blocks in memory is bounded", "statement": "At every moment each block handed out is with a worker (one per worker), waiting for an earlier block, or written; results wait only while a worker still has the block that is due; at most as many wait as blocks were handed out since then; while the writer is slow nothing more is kept, and with one worker at most one result waits. With two or more workers there is no bound: one slow block lets the results of the whole rest of the file pile up.", "quantifier": "every file, number of workers and interleaving", "why_tests_cant": "How much piles up depends on how slow one block is compared to the others.", "anchors": ["internal/pbf/reorder.go: reorder", "internal/pbf/process.go: ProcessFileAsync"]}
{"id": "C83", "title": "Commands running at the same time do not disturb each other", "statement": "While other processes change any files but those a command reads or writes, the command ends, with the result it has alone, and leaves its files as it does alone; files it does not write are changed by the others only. So two commands neither of which writes a file the other reads or writes both do what they do alone, in every interleaving of their file accesses; if one dies the other is not disturbed. Building the node index and the way index of one file at the same time is an instance. (A command whose input is still being written by the other is not covered, and can take an unfinished file for a complete one.)", "quantifier": "every command, file system, other process, interleaving of single file accesses and moment of death", "why_tests_cant": "Interleavings of two processes' file accesses are unbounded.", "anchors": ["cmd/*", "internal/iio/wrappers.go", "internal/pbf/process.go"]}
{"id": "C84", "title": "Profiling changes nothing but the profiles", "statement": "With any of the profiling options a command whose files are not the profile files ends as without them and leaves the same files; the profile of a completed run is the one the runtime wrote last; without the options nothing else is touched. (The names are not checked: a memory profile named like the output replaces it, a processor profile named like the input empties it before it is read.)", "quantifier": "every command, option set, file system and profile content", "why_tests_cant": "All option combinations and inputs; profile data is written at arbitrary moments of the run.", "anchors": ["internal/system/setup.go: Setup", "internal/system/args.go"]}
{"id": "C85", "title": "The statistics of rewritenodes do not depend on the schedule", "statement": "The four numbers rewritenodes prints at the end (hint hits, default hits, default misses, deferred misses) are determined by the input file, the node index and the memory target: the same for every number of workers, every way the blocks are dealt to them and every interleaving. In each pass each ref that is still an id counts once: deferred if above the last range of the pass, missed if no range has it, else a hit (a hint hit if its range is that of the last hit in the block, at first the first range). Together they are the number of lookups of all passes, modulo 2^64. (Ids in a gap of a range count as hits though nothing is located.)", "quantifier": "every file, index, memory target, number of workers, dealing of blocks and interleaving of the atomic increments", "why_tests_cant": "The counters are shared by all goroutines of all passes; a sample of schedules cannot show that the sums never differ.", "anchors": ["internal/nodeindex/nodesubindex.go: findNodeActual", "internal/nodeindex/nodeindex.go: PrintStats", "cmd/rewritenodes/rewriter/noderewriter_worker.go: Worker"]}
{"id": "C86", "title": "The progress bars tell the truth, within a column", "statement": "The highlighted bar of a line (of a file, or of pass k of n) is between nothing and the whole line, never gets shorter while a file is processed, ends at most one column from the exact share of the work done, and covers the whole line exactly at the end of the last pass (for n times the file size up to 2^49); between passes it may step back, but by at most one column (and it does: 63 to 62 of 90 columns after pass 14 of 20). What stands out on the screen is this bar, except that nothing stands out when it covers the whole line: at 100 % the bar vanishes. The text says the number of the pass, from 1, and the number of passes.", "quantifier": "every file size, position, pass, number of passes and line width up to 2^48; every run of the pipeline; float64 with IEEE 754 rounding", "why_tests_cant": "The result depends on rounding errors, which show only for particular combinations of numbers.", "anchors": ["internal/ui/format.go: MarkupAsProgress", "internal/ui/widget/widget_pass_progress.go: update", "internal/ui/widget/widget_process_state.go: update"]}
{"id": "C87", "title": "Files in the OSM PBF format are read as they are meant", "statement": "Given the format as its documentation has it (protocol buffers; fileformat.proto and osmformat.proto), independently of this code: every message and every file in it is read with exactly the content the format assigns to it, with the fields in any order, numbers padded or not, info sections skipped, payloads stored or compressed; with any reader options what is skipped is kept as the bytes of the messages. So all that is proved of the programs on files they understand holds of every file in the format. A field that the code does not support (nodes that are not dense, lists that are not packed, indexdata, other compressions, unknown fields) makes the reader panic, it is not dropped. Lists in several pieces are outside: there only the last piece is kept.", "quantifier": "every message, file, order of fields, encoding of numbers, reader options and zlib output schedule", "why_tests_cant": "The unit tests and the round-trip properties use the code's own writer; a mistake made in both directions, or an encoding the writer never produces, is invisible to them.", "anchors": ["internal/t/way.go", "internal/t/relation.go", "internal/t/dense_nodes.go", "internal/t/primitive_group.go", "internal/t/primitive_block.go", "internal/t/blob.go", "internal/t/blob_header.go", "internal/t/string_table.go", "internal/pbf/process.go", "internal/pb"]}
{"id": "C88", "title": "Files written are in the OSM PBF format", "statement": "Everything that is written is in the format as documented: string tables, ways, relations, dense nodes, blocks (assembled, or read with any options and changed), blobs, headers and frames, with the content they were given. rewritenodes makes of a file in the format a file in the format with the same blocks except for the resolved refs; decompress one with the same types, payloads and blocks that can be read without zlib; tagfilter one with the wanted part of the content.", "quantifier": "every value, every file, schedule, number of workers and passes", "why_tests_cant": "Tests that read files back with the same code cannot tell whether other programs understand them.", "anchors": ["internal/t/way.go: Write", "internal/t/primitive_block.go: Write", "internal/t/blob.go: Write", "internal/t/blob_header.go: Write", "cmd/rewritenodes", "cmd/decompress", "cmd/tagfilter"]}
{"id": "C89", "title": "A lookup reads logarithmically many entries", "statement": "A lookup of a node or way id in an index, or a part of it, with fewer than 2^k entries reads at most k+2 entries, whatever the id, the hint and the content (also if the index is not in order); what stands in the other entries cannot change the answer. An index of n nodes has at most n entries.", "quantifier": "every index content, part, id and hint", "why_tests_cant": "A bound for all sizes cannot be measured; a search that degenerates for some hints or gaps passes any test on small indexes.", "anchors": ["internal/nodeindex/nodesubindex.go: findNodeActual", "internal/wayindex/subindex.go: findLocationsActual"]}
{"id": "C90", "title": "The index files are small", "statement": "A completed run of nodeindex on a file with n nodes leaves an index of at most 16+24n bytes, whatever the ids and locations; a completed run of wayindex with n ways and r refs one of at least 16+10n and at most 16+(9+2^shift)n+10r bytes.", "quantifier": "every input for which the run completes, all ids, orders, locations and alignments", "why_tests_cant": "The worst case (isolated ids, long deltas, full padding) does not occur in sample data.", "anchors": ["cmd/nodeindex/indexer", "cmd/wayindex/wayindexer"]}
{"id": "C91", "title": "No data races", "statement": "No two accesses of memory that are concurrent in the sense of the Go memory model conflict: the mapped input file (its unmapping included), what the caller hands to the workers, the results on their way from worker to writer, the counters, the pooled buffers, the progress that the widgets show, whatever the caller uses after Wait, the list of tracked workers and its version, the words in which workers and writers say what they do, and the widgets that show them. Exception: in rewritenodes the size of the file is written while PassProgress may read it; this is the only race, and it exists.", "quantifier": "every schedule, number of workers, input, cancellation point, pool behaviour and order of accesses", "why_tests_cant": "The race detector only sees the schedules that happen in a test; what is missing here is a happens-before edge, which most schedules do not need.", "anchors": ["internal/pbf/process.go: processFileWork, ProcessFileAsync, Wait", "internal/pbf/reorder.go: reorder", "internal/pool/bytebuffer.go", "internal/ui/widget/widget_pass_progress.go: update", "internal/ui/widget/widget_process_state.go: update", "internal/ui/ui.go: ReplaceWidgets", "internal/tracker/worker_tracker.go: TrackWorker, UntrackWorker, WorkerStates", "internal/tracker/widget_workers.go: RefreshStates", "cmd/nodeindex/indexer/state"]}
{"id": "C92", "title": "A relation index can be read in only one way", "statement": "The file that relindex writes is a sequence of little endian 64 bit words: for each relation of the input its id, the number of its ways and for each of these its id, the number of its locations and the locations. No file is the index of two different lists of relations, so whoever reads the output of a run by this format finds exactly the relations of the input, in order, with their ways in member order and the locations that the way index gives for them; the size of the file is determined by these numbers.", "quantifier": "every input, way index, number of passes and every pair of lists of relations", "why_tests_cant": "That no two contents share a file is a statement about all pairs; there is no reader in this code with which a test could look at the output.", "anchors": ["cmd/relindex", "cmd/relindex/relindexerinit"]}
{"id": "C93", "title": "Damaged input is never taken for complete", "statement": "A command that ends normally, without having been cancelled, has read its input from the first byte to the last one, and has unpacked and decoded every block of data in it (decompress: unpacked). So a file in the format that was cut short anywhere but exactly between two blobs, or with a blob that zlib rejects or of which it delivers too little, makes every command panic, in every schedule; and nodeindex and wayindex then never leave an index that is accepted: the output file is as it was before or is rejected.", "quantifier": "every input file, every place where it may have been cut, every command, schedule, number of workers and moment", "why_tests_cant": "A test tries a few places to cut at; with many workers the panic comes at another moment each time, while the writer has done a different part of its work.", "anchors": ["internal/pbf/process.go: processFileWork", "internal/t/blob.go: decodeZLib", "internal/t/blob_header.go", "cmd/*/*_worker.go", "cmd/nodeindex/indexer/nodeindexer_writer.go", "cmd/wayindex/wayindexer/wayindexer_writer.go"]}
{"id": "C94", "title": "A pass of relindex never misreads the file of the pass before it", "statement": "Between its passes relindex keeps the relations in a file of words in which a way takes one word or many, told apart by the sign of the first one. Whatever that file holds, there is at most one way to read it as whole relations; a pass succeeds exactly if there is one (and the file is not empty, and no lookup panics), and then writes just these relations, in order, with the ways it found completed, the ways completed before unchanged and the others left for later, or in the last pass without locations. A file that ends in the middle of a relation makes the pass panic. What a pass writes the next one reads back as what was meant, and the last pass writes a relation index in its format.", "quantifier": "every content of the pass file, every way index, pass and number of passes", "why_tests_cant": "A test uses the files of a few small runs; a misreading needs a particular sequence of counts, signs and lengths, or a file cut at a particular word.", "anchors": ["cmd/relindex/relindex.go: rewrite, runPasses"]}
{"id": "C95", "title": "What is printed can be read in only one way, and says what was found", "statement": "The texts that dumpwayindex, dumpnodeindex, entitycount and blockcount print, and the statistics that rewritenodes and wayindex print, can each be read in at most one way as the report they are; and whoever reads them finds what the program found: for dumpwayindex every way of the index with all its locations, in order, so for the index that wayindex makes every way of the source with the location of each of its nodes; for dumpnodeindex every slot of every range with its id and location exactly and its coordinates rounded to six digits; for entitycount the totals and largest ids of the file; for blockcount the number of blocks; for the statistics the four counts and the bucket of each lookup.", "quantifier": "every index and file, every location, id and count, every output text", "why_tests_cant": "A test compares the output of a few examples; ambiguity and rounding errors show for particular signs, digits and magnitudes.", "anchors": ["cmd/dumpwayindex/dumpwayindex.go", "cmd/dumpnodeindex/dumpnodeindex.go", "cmd/entitycount/entitycount.go", "cmd/blockcount/blockcount.go", "internal/nodeindex/nodeindex.go: PrintStats", "internal/wayindex/wayindex.go: PrintStats"]}
{"id": "C96", "title": "The statistics of relindex say what has become of the ways", "statement": "The four numbers that relindex prints account for every lookup of every pass: in each pass exactly the way members that no earlier pass has found are looked up, in order; a way after the end of the part of the index that the pass has counts as deferred, the first way of the part as a hit at the hint, its other ways as hits, the rest as missing. So the two kinds of hits together are the way members whose way some pass has - if the passes cover the index, those whose way the index has - each counted once however many passes there are. Counting changes nothing that is written, and whoever reads the printed statistics finds these numbers.", "quantifier": "every source, way index and number of passes; for a single pass, every content of its input file", "why_tests_cant": "A test compares the numbers of a few runs; that no lookup is counted twice or not at all must hold for every sequence of passes and members.", "anchors": ["cmd/relindex/relindex.go: rewrite, main", "internal/wayindex/subindex.go: findLocationsActual", "internal/wayindex/wayindex.go: PrintStats"]}
{"id": "C97", "title": "What entityfind prints can be read in only one way, and is exactly what the file says", "statement": "Each line that entityfind prints can be read in at most one way, and the whole output in at most one way, whatever bytes the tags and roles consist of (quotes, backslashes, newlines, commas, braces, invalid UTF-8): strings are read back byte for byte. Whoever reads the output of a finished run finds exactly the requested entities of the file, each as often as it is there, with id, coordinates, nodes, members, types, roles and all tags; entities of which the same is printed are the same; and the same entity is always printed as the same text, although Go goes through maps in random order.", "quantifier": "every file, every list of ids, every bytes of tags and roles, every schedule, any idea of which characters are printable", "why_tests_cant": "A test compares a few lines; strings that imitate the syntax around them, or are not text at all, and the order of map iteration need all inputs.", "anchors": ["cmd/entityfind/entityfind.go: findEntity", "internal/t/primitive_block_nodes.go: HLNode", "internal/t/primitive_block_ways.go: HLWay", "internal/t/primitive_block_relations.go: HLRelation"]}
{"id": "C98", "title": "The lines on the screen can be read in only one way, and say what is being done", "statement": "Each line that the screen shows for a worker, a writer or the file being read can be read in at most one way, as one of a few phrases with numbers in them; and whenever and however slowly the screen is redrawn, a line can be read: it then says what was being done when the redraw looked (for the workers of nodeindex, wayindex, relindex, decompress and rewritenodes and all writers), the block number in it, if it has one, is of a block in hand during the redraw (but for the writers of nodeindex, wayindex and tagfilter, which show other numbers), and a percentage in it is the share done to a tenth of a percent: from 0.0 to 100.0, never going back, 100.0 at the end, NaN for an empty file. A line without a percent sign is shown in full whatever its progress bar; one with a percentage in full exactly if the bar ends within the line, so that at the end its percent sign is missing unless the line is wider than the screen.", "quantifier": "every sequence of blocks, every moment and duration of a redraw, every count up to 2^64, every width of the screen, every name of a file", "why_tests_cant": "A test looks at a screen now and then; rounding, lengths and the moments of the loads need all values and all interleavings.", "anchors": ["cmd/*/*/widget/widget_state_worker.go: update", "cmd/*/*/widget/widget_state_writer.go: update", "internal/ui/widget/widget_process_state.go: update", "internal/ui/format.go: MarkupAsProgress"]}
{"id": "C99", "title": "What a progress bar does to a line with any characters", "statement": "For a line of any characters (a file name can have any), of which some take more than one byte, the screen shows the text of the line, filled up with spaces, exactly if the bar - whose length is counted in bytes - ends between two characters, or there is no bar and no percent sign in the line. If the bar ends within a character, then instead of that character as many replacement characters are shown as it has bytes, and everything else as it is. The line, and the bar, are shorter than the screen asks for by one column for each byte of a character after its first; with ASCII characters only they are not.", "quantifier": "every text, every width, every length of the bar (all integers)", "why_tests_cant": "Tests use ASCII names; which lengths of the bar cut a character depends on the text, the width and the share done.", "anchors": ["internal/ui/format.go: MarkupAsProgress, EscapePercent", "internal/ui/widget/widget_process_state.go: update"]}
{"id": "C100", "title": "Power failure while an index is written", "statement": "After a power failure - which may leave, of each page of a new file, what was in it at any moment, zeros where nothing had been written, and the length of any moment - an index that is accepted is complete. (False: nothing is synchronised. What holds: an accepted index had been completely written and its first page is as it was; every byte is the one written or zero, and the file is not longer; with header and ranges intact, a node index gives a right location or none. But a lost page of ranges makes node lookups answer with the locations of other nodes, and a lost page of locations makes ways appear found with empty paths. Had the file been synchronised before its header, an accepted index would be complete.)", "quantifier": "every input, chunking, cancellation, page size of at least 16 bytes, every combination of moments for the pages and the length", "why_tests_cant": "A test cannot cut the power, and the combinations of what reached the disk are unbounded.", "anchors": ["cmd/nodeindex/indexer/nodeindexer_writer.go: Output", "cmd/wayindex/wayindexer/wayindexer_writer.go: Output", "internal/nodeindex/nodesubindex.go: FindNode", "internal/wayindex/subindex.go: FindLocations", "internal/nodeindex/index_element.go: LastID, contains"]}
{"id": "C101", "title": "A run after any number of interrupted runs", "statement": "After any number of attempts to run a command have been interrupted at any moment - killed, cancelled, or ended by a panic - and have left whatever they had written, running it again ends as if none of them had been: it completes exactly if an undisturbed run would, and then with the same bytes in all files, no temporary file being left. So the four commands of C69, each after any number of interrupted attempts, make the right relation index. (With another number of passes or memory target than the attempts the result is the same as well, but pass files of the attempts stay.)", "quantifier": "every history of interrupted attempts, each with its own schedule, number of workers, cancellation and moment; every input; every previous content of the output and temporary files", "why_tests_cant": "The histories are unbounded sequences of crash points.", "anchors": ["cmd/nodeindex/nodeindex.go", "cmd/wayindex/wayindex.go", "cmd/relindex/relindex.go", "cmd/rewritenodes/rewritenodes.go", "cmd/tagfilter/tagfilter.go", "cmd/decompress/decompress.go", "internal/iio/wrappers.go: OsCreate"]}
{"id": "C102", "title": "Sources that are not sorted, or in which ids repeat", "statement": "Nothing checks that the source is sorted by id without repeats. Whatever the order of its nodes and ways, and however often an id occurs, both indexers complete and leave files that open, and no lookup, in any pass and with any hint, ever gives a location (or path) other than that of an element of the source with the id asked for. If ids never go down (a full-history file, with several versions of an element one after the other), lookups in the whole index find an id exactly if the source has it, with one of its versions. rewritenodes with such an index completes, with any number of passes, and replaces refs only by locations of nodes with that id (in the never-down case, with one pass, every ref to a node of the source). If ids do go down, elements that are in the file may not be found (shown for nodes 5, 2 and ways 8, 3).", "quantifier": "every order and multiplicity of ids of at least 2 (ways: within the format's limits), every block structure, id, non-negative hint and pass", "why_tests_cant": "There are unboundedly many orders; the binary search over ranges that are not in order, and the merging of neighbouring ids, have to be followed for each.", "anchors": ["cmd/nodeindex/indexer/nodeindexer_worker.go: Worker", "internal/nodeindex/nodesubindex.go: FindNode", "cmd/wayindex/wayindexer/wayindexer_worker.go", "internal/wayindex/subindex.go: FindLocations", "cmd/rewritenodes/rewriter/noderewriter_worker.go"]}
{"id": "C103", "title": "The relation index with whatever way index", "statement": "relindex does not check the way index it is given. Whatever that file holds (the index of an unsorted or history file, or a damaged one that still opens) and however many passes are made, relindex completes exactly if every pass can be made and no lookup of a way member not found by an earlier pass panics; then its output is a relation index of exactly the relations of the source, in order, each with its way members in order, and each of these with the locations given by the first pass that finds it, or none if no pass does. With the index of a source in any order each list is therefore empty or the path of a way of the source with that id; if way ids never go down and the passes cover the index, it is empty only for ways the source does not have.", "quantifier": "every way index file that opens, number of passes, source with relations whose member lists have equal lengths and positive way ids", "why_tests_cant": "The result is the composition of an unbounded number of passes over intermediate files, each with its own part of the index, over unboundedly many index files most of which no indexer would write.", "anchors": ["cmd/relindex/relindex.go: rewrite, main", "internal/wayindex/wayindex.go: SubIndexWithScaledPass", "internal/wayindex/subindex.go: FindLocations"]}
{"id": "C104", "title": "The chain of commands on a source in any order", "statement": "Nothing checks that a source file is sorted. For a source whose nodes, ways and relations are in any order and may repeat, nodeindex, rewritenodes, wayindex and relindex one after the other all complete (if the passes over the node index can be made; with no memory target they always can), and leave a relation index of exactly the relations of the source, in order, with their way members in order. No geometry in it is wrong: each member has no locations at all, or the path of a way of the source with that id, in which every ref is the location of a node of the source with that id or is left as it was. If node ids and way ids never go down (a history file) and the passes cover the node index, nothing is missed either: only ways which the source does not have are empty, and every ref to a node of the source is the location of one of its versions.", "quantifier": "every source file with complete dense nodes, not too many nodes, refs or members; any order and repetition of ids; any memory target; up to 2^shift passes over the way index; schedules, pooled buffers", "why_tests_cant": "Four programs over unboundedly many unsorted files; the lookups use binary searches whose answers on unsorted data depend on hints left by earlier lookups.", "anchors": ["cmd/nodeindex/nodeindex.go: main", "cmd/rewritenodes/rewritenodes.go: main", "cmd/wayindex/wayindex.go: main", "cmd/relindex/relindex.go: main"]}
{"id": "C105", "title": "Power failure while a file of blocks is written", "statement": "After a power failure - which may leave, of each page of a new output file, what was in it at any moment, zeros where nothing had been written, and the length of any moment - what can be read of the output of decompress, tagfilter or rewritenodes are the first blocks of the complete output. (False: a page lost inside a block leaves a file that is accepted, with other content, for instance a way with another name. What holds: every byte is the one written or zero, and the file is not longer; and if no header of a block is on two pages, then the file is rejected or is read as the first blocks of the complete output, of the same kinds and lengths, in which only bytes have become zeros. So a page lost where a block begins is always noticed.)", "quantifier": "every input, schedule of zlib, cancellation, number of passes, page size, every combination of moments for the pages and the length", "why_tests_cant": "A test cannot cut the power, and the combinations of what reached the disk are unbounded.", "anchors": ["cmd/decompress/decompressor/decompressor_writer.go", "cmd/tagfilter/tagfilterer/tagfilterer_writer.go", "cmd/rewritenodes/rewriter/noderewriter_writer.go", "internal/pbf/process.go: processFileWork", "internal/t/blob_header.go: ReadBlobHeader"]}
{"id": "C106", "title": "Errors of the operating system do not go unnoticed", "statement": "If any call by which a command opens, creates, reads or writes a file fails, at any point of its run, or the disk is full, the command panics; so a command that ends normally has done everything. What is then left is what an interrupted run leaves: of decompress, tagfilter, rewritenodes and relindex a first part of the output (decompress on a full disk: as much of it as there was room for), of nodeindex and wayindex a file that is rejected, or one with at least a byte of its header. Only a file between passes which cannot be removed is not noticed: it is left over, everything else is as it should be.", "quantifier": "every program that reaches files through iio, every input, schedule, every pattern of failing calls and partial writes, every room on the disk, every set of files that cannot be removed", "why_tests_cant": "A test would have to make each single call fail, and the patterns are unbounded.", "anchors": ["internal/iio/wrappers.go: FWrite, FWriteSliceI64, OsCreate, OsOpen, OsRemove, OsRemoveTry", "cmd/rewritenodes/rewritenodes.go", "cmd/relindex/relindex.go", "cmd/decompress/decompress.go", "cmd/tagfilter/tagfilter.go", "cmd/nodeindex/nodeindex.go", "cmd/wayindex/wayindex.go"]}
{"id": "C107", "title": "The order of tagfilter and rewritenodes does not matter", "statement": "Rewriting a file with an index and filtering the result gives the same content, block by block, as filtering it first and rewriting what is left, and the same number of blocks is dropped, if all four runs end normally; also when the two rewriting runs have different memory targets, provided that their passes cover the index. The bytes of the two outputs are in general not the same. There is one case in which only one of the orders ends normally: if tagfilter leaves no block (which needs a file without a header block) its output is empty and rewritenodes panics on it.", "quantifier": "every file in the format, every index and memory target, every zlib, every schedule of the goroutines in each of the four runs, all file names (the filtered file not being the index)", "why_tests_cant": "Equality of two composed programs on all files; a test compares the two orders on a few.", "anchors": ["cmd/tagfilter/tagfilterer/tagfilterer_worker.go", "cmd/tagfilter/tagfilterer/tagfilterer_writer.go", "cmd/rewritenodes/rewriter/noderewriter_worker.go", "cmd/rewritenodes/rewritenodes.go"]}
{"id": "C108", "title": "Only the content of the input matters", "statement": "If two input files have the same content (headers, and for each block string table, groups, entities and numbers) but are encoded differently - compressed or not, fields in another order, other ways of writing the same numbers - then each command does the same with both: nodeindex, wayindex, relindex (with the same way index) and tagfilter end the same way on both, and if they end normally the output files have the same bytes; entitycount prints the same numbers and entityfind the same entities; of rewritenodes the outputs have the same content. In particular the indexes made of a file and of the same file decompressed are the same.", "quantifier": "every two files in the format with the same content, every zlib, all schedules, numbers of workers and points of cancellation, all indexes, all file names and other contents of the disk", "why_tests_cant": "Equality of two runs over all pairs of encodings; a test can compare a few encodings of a few files.", "anchors": ["cmd/nodeindex/indexer/nodeindexer_worker.go", "cmd/wayindex/wayindexer/wayindexer_worker.go", "cmd/relindex/relindexerinit/relindexer_worker.go", "cmd/tagfilter/tagfilterer/tagfilterer_worker.go", "cmd/rewritenodes/rewriter/noderewriter_worker.go", "cmd/entitycount/entitycount.go", "cmd/entityfind/entityfind.go", "cmd/decompress/decompressor/decompressor_worker.go"]}
{"id": "C109", "title": "Never more than two files between passes", "statement": "At every moment of a run of relindex or rewritenodes, however many passes it makes - also if it panics, is cancelled, or is stopped there - the files on the disk are those that were there before, the output, and at most two files between passes, with consecutive numbers: each pass removes its input before the next one creates its output. So the space a run takes does not grow with the number of passes, and a run which is stopped leaves at most two files to clean up.", "quantifier": "every moment (every prefix of the file operations, half-done writes included) of every run: every input, index, schedule, point of cancellation, number of passes (or memory limit), and every disk before", "why_tests_cant": "Crash points of runs of any number of passes; a test can look at the disk at the end.", "anchors": ["cmd/relindex/relindex.go: main, rewrite", "cmd/rewritenodes/rewritenodes.go: main", "internal/iio/wrappers.go: OsRemove, OsRemoveTry"]}
{"id": "C110", "title": "Filtering tags does not change the indexes of ways and relations", "statement": "wayindex makes the same way index, byte for byte, of a file and of what tagfilter made of it (or panics on both), and relindex, with the same way index, the same relation index: tagfilter drops nodes and whole blocks and encodes everything anew, but keeps all ways and relations with their ids, references and members, in their order. Also entitycount prints the same numbers of ways, relations and references, and the same largest ids of ways and relations. This holds if the filtered file is not empty, and it is not if the file has a header block.", "quantifier": "every file in the format, every zlib, all schedules in each of the runs, every shift and number of passes, every way index, all file names and other contents of the disks", "why_tests_cant": "Equality of two composed programs on all files and schedules; a test compares a few.", "anchors": ["cmd/tagfilter/tagfilterer/tagfilterer_worker.go", "cmd/tagfilter/tagfilterer/tagfilterer_writer.go", "cmd/wayindex/wayindexer/wayindexer_worker.go", "cmd/wayindex/wayindexer/wayindexer_writer.go", "cmd/relindex/relindexerinit/relindexer_worker.go", "cmd/relindex/relindexerinit/relindexer_writer.go"]}
{"id": "C111", "title": "Rewriting does not change the indexes of nodes and relations", "statement": "nodeindex makes the same node index, byte for byte, of a file and of what rewritenodes made of it with any index and memory target, and relindex, with the same way index, the same relation index; if one of the two runs panics, so does the other. entitycount prints the same numbers for both. So the node index of a rewritten file is as good as that of its source.", "quantifier": "every file in the format, every index (in order, with locations as nodeindex makes them), memory target, zlib, all schedules and points of cancellation of the index programs, all file names and other contents of the disks", "why_tests_cant": "Equality of two composed programs on all files, indexes and schedules; a test compares a few.", "anchors": ["cmd/rewritenodes/rewritenodes.go", "cmd/rewritenodes/rewriter/noderewriter_worker.go", "cmd/nodeindex/indexer/nodeindexer_worker.go", "cmd/nodeindex/indexer/nodeindexer_writer.go", "cmd/relindex/relindexerinit/relindexer_worker.go"]}
{"id": "C112", "title": "What no command changes", "statement": "However often and in whatever order a file is put through decompress, tagfilter and rewritenodes (each run complete, with any index and memory target): the result is again a file in the format, not empty; it has the same ways, by id and number of references, and the same relations, by id, members and member types, in the same order; relindex, with the same way index, makes the same relation index of it, byte for byte, as of the first file; and entitycount prints the same numbers of ways, relations and references and the same largest ids of ways and relations. If rewritenodes is not among the commands, wayindex makes the same way index; if tagfilter is not among them, nodeindex makes the same node index. (decompress: of payloads that are not empty and not near 2^31 bytes; tagfilter: if something is left.)", "quantifier": "every file in the format, every finite history of runs, with every schedule, zlib, index, memory target, file names and disk in each run", "why_tests_cant": "Histories of any length; a test runs a few of length one or two.", "anchors": ["cmd/wayindex/wayindexer/wayindexer_worker.go", "cmd/nodeindex/indexer/nodeindexer_worker.go", "cmd/decompress/decompressor/decompressor_worker.go", "cmd/tagfilter/tagfilterer/tagfilterer_worker.go", "cmd/rewritenodes/rewritenodes.go", "cmd/relindex/relindexerinit/relindexer_worker.go", "cmd/entitycount/entitycount.go"]}

import json
P=[]
def p(title, statement, quantifier, why, anchors):
    P.append(dict(id="C%02d"%(len(P)+1), title=title, statement=statement, quantifier=quantifier, why_tests_cant=why, anchors=anchors))

# --- wire primitives
p("Varint round trip",
  "Appending the varint encoding of any 64-bit value to any buffer and decoding at that position returns exactly that value and advances the cursor by exactly the bytes appended, whatever precedes or follows; the encoding is the shortest possible (1 to 10 bytes).",
  "every uint64 value, every prefix buffer, every trailing byte string",
  "2^64 values times arbitrary surroundings; ten hand-unrolled cases per direction",
  ["internal/pb/varint.go: EncodeVarInt, DecodeVarInt"])
p("Varint decoder accepts exactly the base-128 numbers that fit",
  "Decoding at a position succeeds iff the bytes there begin with a terminated base-128 little-endian group of at most 10 bytes whose value fits in 64 bits (minimal or padded); it then returns that value and the group's length. Otherwise it panics; it never reads outside the slice and never returns a wrong value.",
  "every byte slice, every start position",
  "all byte strings, including padded encodings that the encoder itself never emits but the embedded-length writer does",
  ["internal/pb/varint.go: DecodeVarInt"])
p("ZigZag is a bijection that keeps small magnitudes small",
  "Zigzag-encoding maps n>=0 to 2n and n<0 to -2n-1 and decoding inverts it in both directions, including the minimum int64.",
  "every int64 and every uint64",
  "2^64 inputs; sign/shift mistakes appear only at extremes",
  ["internal/pb/varint.go: EncodeZigZag, DecodeZigZag"])
p("Packed lists round trip",
  "Every packed list encoder/decoder pair (I32, U32, S32, S64 delta, U64) returns the list that was encoded, for every list of values, including delta lists whose differences wrap around 64 bits, and leaves the cursor just after the field.",
  "every list of int32/uint32/int64/uint64 of any length, any surrounding bytes",
  "lists of unbounded length and wrap-around deltas",
  ["internal/pb/32.go: EncodeI32Packed, DecodeI32Packed, EncodeS32Packed, DecodeS32Packed, EncodeU32PackedFunc, DecodeU32Packed", "internal/pb/64.go: EncodeS64PackedDelta, EncodeS64PackedDeltaFunc, DecodeS64PackedDelta, EncodeU64Packed, DecodeU64Packed"])
p("Zero-terminated delta lists stop exactly at the first repeated value",
  "Decoding a zero-terminated delta list written by the encoder and followed by any bytes returns the longest prefix of the list containing no leading 0 and no two equal neighbours; hence it returns the whole list iff no value equals its predecessor (the first value being compared with 0). A list cut before the end of its terminator panics.",
  "every int64 list, every trailing byte string",
  "the documented restriction ('sequential duplicate values will not work') must be exact for all lists",
  ["internal/pb/64.go: EncodeS64PackedDeltaZero, DecodeS64PackedDeltaZero", "internal/pb/doc.go"])
p("Embedded sub-messages carry the right length or panic",
  "Embedding a payload with any of the four reservation sizes appends the field id, a fixed-width length, then the payload, such that the ordinary length-prefixed reader returns exactly the payload; it panics iff the payload is at least 128, 16384, 2097152 or 268435456 bytes respectively.",
  "every field id, payload and buffer; all four sizes",
  "boundary between success and panic for all payload lengths",
  ["internal/pb/embed.go: Embed128, Embed16384, Embed2097152, Embed268435456"])
p("Length-prefixed bytes and strings round trip",
  "A byte string or string written with its length (with or without a field id) is read back exactly, and the cursor ends just after it.",
  "every byte string, every surrounding bytes",
  "unbounded inputs", ["internal/pb/buffer.go: EncodeBuffer, EncodeIdBuffer, ReadBytes, DecodeBytes, EncodeString, DecodeString"])
p("A field length that overruns its message is rejected",
  "If a length prefix inside a message promises more bytes than the message has left, reading panics instead of returning bytes belonging to whatever follows the message.",
  "every message and enclosing buffer",
  "needs the capacity semantics of Go slices for all malformed inputs", ["internal/pb/buffer.go: ReadBytes, SkipBytes"])
p("Parsing terminates",
  "Parsing any byte string as any of the message types either returns or panics after at most one iteration per input byte; it never loops forever.",
  "every byte string, every message type",
  "non-termination cannot be observed by a finite test; depends on adversarial lengths", ["internal/pb/buffer.go: SkipBytes", "internal/t/*.go: Read*"])
# --- messages
p("String table message round trip", "Writing a string table and reading it back yields the same strings in the same order.", "every list of strings", "unbounded", ["internal/t/string_table.go"])
p("Way message round trip", "Writing a way and reading it back yields the same id, keys, values and refs, or the write panics because a section is 16384 bytes or more.", "every way", "unbounded lists, all int64 refs", ["internal/t/way.go"])
p("Relation message round trip", "Writing a relation and reading it back yields the same id, keys, vals, roles, members and member types, or the write panics on an oversized section.", "every relation", "unbounded lists", ["internal/t/relation.go"])
p("Dense nodes message round trip", "Writing dense nodes and reading them back yields the same ids, latitudes, longitudes and key/values, or the write panics on an oversized section.", "every dense node group", "unbounded lists", ["internal/t/dense_nodes.go"])
p("Primitive block round trip under every reader option", "Writing a parsed block and reading it again with the same reader options yields the same block: decoded sections are equal and skipped sections are byte-for-byte identical, including granularities and offsets at and away from their defaults.", "every primitive block and every combination of skip options", "product of unbounded structures and 16 option settings", ["internal/t/primitive_block.go", "internal/t/primitive_group.go", "internal/t/reader.go"])
p("Blob and blob header round trip", "A blob (raw, raw size, zlib data) and a blob header (type, size) written and read back are unchanged, except that empty sections are read back as absent.", "every blob and header", "unbounded", ["internal/t/blob.go: ReadBlob, Write", "internal/t/blob_header.go"])
p("Skip options only skip", "Reading a block with some sections skipped agrees with reading it in full: unskipped sections are identical, and each skipped section is kept as raw bytes which, parsed, give the section the full read produces.", "every byte string on which the full read succeeds, every option combination", "relates two reader configurations on all inputs", ["internal/t/primitive_block.go: ReadPrimitiveBlock", "internal/t/primitive_group.go: ReadPrimitiveGroup"])
p("Unknown fields are never silently ignored", "A message whose next field is not one the reader knows (for that message type and wire type), or a group containing non-dense nodes, makes the reader panic.", "every message, every unknown id", "all 64-bit field ids", ["internal/t/*.go: Read* default cases"])
# --- HL
p("String indices and the string table agree", "After finalizing, every string that was added has an index, the table entry at that index is that string, distinct strings have distinct indices, and asking for a string never added panics.", "every sequence of added strings", "arbitrary histories", ["internal/t/string_table_builder.go: AddString, AddMap, Finalize, GetIndex, ToStringTable"])
p("String table order is by frequency then bytes, independent of insertion order", "The finalized table lists the non-empty strings by descending number of additions, ties in byte order, and is therefore the same for any reordering of the additions (in particular any map iteration order).", "every sequence of additions and every permutation of it", "map iteration order is random; ties everywhere", ["internal/t/string_table_builder.go: Finalize"])
p("Index 0 is always the empty string", "After finalizing, index 0 of the table is the empty string (dense node key/values use 0 as a delimiter).", "every sequence of additions, including additions of the empty string itself", "frequency counter wraps at 2^32 only when the empty string is added", ["internal/t/string_table_builder.go: NewStringTableBuilder, AddString"])
p("Nodes survive block assembly", "Assembling nodes into a block and extracting them yields the same nodes in the same order: same id, same tags, and coordinates equal up to truncation to 100 nanodegrees.", "every list of nodes with any tags", "all tag maps incl. empty strings; all coordinates", ["internal/t/primitive_block.go: MakePrimitiveBlock", "internal/t/primitive_block_nodes.go", "internal/t/dense_nodes.go: GetKeyVals"])
p("Ways and relations survive block assembly", "Assembling ways and relations into a block and extracting them yields the same ids, tags, node refs, roles, members and member types in the same order.", "every list of ways and relations, with any tags and roles (including empty roles)", "unbounded", ["internal/t/primitive_block_ways.go", "internal/t/primitive_block_relations.go", "internal/t/primitive_block.go: MakePrimitiveBlock"])
p("Block assembly is deterministic", "The assembled block does not depend on the order in which tag maps happen to be iterated.", "every pair of iteration orders of every tag map", "Go randomizes map iteration", ["internal/t/primitive_block.go: MakePrimitiveBlock", "internal/t/string_table_builder.go: ToKeyVals, ToKeyValLinear"])
p("Dense key/values are attributed to the right node", "For a well-formed key/value stream, asking for node i returns exactly the i-th delimited group, whichever nodes were asked for before (cached or not). A node behind the last terminator, or a stream with a key that has no value, panics.", "every well-formed stream and every sequence of queries", "cache state depends on query history", ["internal/t/dense_nodes.go: GetKeyVals"])
# --- morton
p("Morton codes are a bijection", "Encoding a pair of 32-bit values puts the first in the even bits and the second in the odd bits; decoding recovers both, and encoding what was decoded gives back the code.", "all 2^64 pairs / codes", "2^64 inputs", ["internal/morton/morton.go: Encode, Decode"])
p("Locations are marked and recoverable", "The location stored for a node is always negative as int64 (hence never 0 and never a valid id), and decoding it returns the longitude and latitude exactly whenever latitude is in [-2^30, 2^30) ten-millionths of a degree, which includes [-90,90] degrees.", "every int32 longitude and every latitude in range", "2^63 inputs", ["internal/morton/morton.go: Encode, DecodeLocation", "cmd/nodeindex/indexer/nodeindexer_worker.go: Worker", "ENCODING.md"])
# --- node index
p("Count/offset packing never corrupts", "Packing a count and an offset either panics or unpacks to exactly that count and offset.", "every pair of uint64", "the boundary count 2^24", ["internal/nodeindex/count_offset.go: NewCountOffset, Count, Offset"])
p("Node lookup is exact and hint-independent", "On a sorted index, looking up an id with any non-negative hint finds it iff some range contains it and its slot is non-zero, and returns that slot's location; the result does not depend on the hint and never panics.", "every well-formed index, every id, every hint", "binary search with hint over unbounded indexes", ["internal/nodeindex/nodesubindex.go: FindNode", "internal/nodeindex/index_element.go"])
p("Hints can be chained", "Starting from hint 0 and feeding each lookup the previous lookup's hint, every lookup in any sequence gives the same answer as a fresh lookup.", "every sequence of ids", "history-dependent state", ["internal/nodeindex/nodesubindex.go: FindNode", "cmd/rewritenodes/rewriter/noderewriter_worker.go"])
p("Every lookup is counted once", "Each lookup increments exactly one of the four hit/miss counters by one, so after any set of concurrent lookups the four counters sum to the number of lookups.", "every multiset and interleaving of lookups", "concurrent atomics", ["internal/nodeindex/nodesubindex.go: FindNode", "internal/wayindex/subindex.go: FindLocations"])
p("Passes over the node index cover it", "The sub-indexes for passes 0..n-1 can all be created and together contain every range of the index exactly once, in order.", "every index, every pass count n>=1", "all pass counts and element sizes; integer division remainders", ["internal/nodeindex/nodeindex.go: SubIndex"])
p("Passes respect the memory target", "With the pass count computed from a memory target, each pass's ranges cover at most target bytes of locations plus one range.", "every index and target", "integer arithmetic over all sizes", ["cmd/rewritenodes/rewritenodes.go: main", "internal/nodeindex/nodeindex.go: SubIndex"])
p("The node index answers with the source's locations", "Indexing blocks of nodes with strictly ascending ids and looking up any id in the resulting index returns the node's encoded location if it was present and 'not found' otherwise.", "every sequence of blocks and groups with ascending ids, every id", "end-to-end over all inputs", ["cmd/nodeindex/indexer/nodeindexer_worker.go: Worker", "cmd/nodeindex/indexer/nodeindexer_writer.go: Output", "internal/nodeindex/nodeindex.go: NewNodeIndex"])
p("The node index file has the documented layout", "A completed run leaves exactly: version, element count, 16 bytes per element, 8 bytes per location, and loading that file yields those elements and locations, however the copy of the location file is chunked.", "every input and every read/write chunking", "chunking schedules; all sizes", ["cmd/nodeindex/indexer/nodeindexer_writer.go: Output", "internal/nodeindex/nodeindex.go: NewNodeIndex", "ENCODING.md"])
p("A crashed node indexing run is never mistaken for an index", "If the process dies at any point before the final header write, opening the output file as a node index panics.", "every input, every crash point (including inside a write)", "all crash points", ["cmd/nodeindex/indexer/nodeindexer_writer.go: Output", "internal/nodeindex/nodeindex.go: NewNodeIndex"])
p("A cancelled indexing run never leaves a valid-looking index", "If the run is cancelled, the output file is not accepted as a complete index with missing locations.", "every input, every cancellation point", "cancellation timing", ["cmd/nodeindex/indexer/nodeindexer_writer.go: Output", "cmd/wayindex/wayindexer/wayindexer_writer.go: Output"])
# --- way index
p("Way id/offset packing never corrupts", "Packing a non-negative way id and offset either panics or unpacks to exactly that id and offset.", "every pair of non-negative int64", "boundaries 2^31 and 2^33", ["internal/wayindex/indexdata.go: MakeIndexData, WayID, Offset"])
p("Way lookup is exact and hint-independent", "On an index with strictly ascending way ids, looking up an id with any non-negative hint finds it iff it is present and returns that way's stored locations, independent of the hint.", "every well-formed index, id and hint", "unbounded indexes", ["internal/wayindex/subindex.go: FindLocations"])
p("Location blocks are aligned and never shared", "Padding always ends on a multiple of the alignment, adds between 1 and alignment bytes of zeros, so each way's data starts on its own boundary.", "every length and alignment", "all sizes", ["cmd/wayindex/wayindexer/wayindexer_worker.go: padToAlignment"])
p("The way index answers with the source's refs", "Indexing ways with strictly ascending positive ids below 2^31 and looking up any way returns its refs with consecutive repeats (and leading zeros) removed; absent ways are not found.", "every non-empty sequence of blocks of ways needing at most 2^33 location blocks, every alignment shift below 62, every id", "end-to-end over all inputs", ["cmd/wayindex/wayindexer/wayindexer_worker.go", "cmd/wayindex/wayindexer/wayindexer_writer.go", "internal/wayindex/wayindex.go: NewWayIndex"])
p("Passes over the way index cover it", "The sub-indexes for passes 0..n-1 can all be created and together contain every way of the index.", "every index, every n>=1", "integer division remainders", ["internal/wayindex/wayindex.go: SubIndexWithScaledPass"])
p("A crashed way indexing run is never used", "If the process dies before the final header write, using the output file (opening it and taking any pass) panics.", "every input, every crash point", "all crash points", ["cmd/wayindex/wayindexer/wayindexer_writer.go: Output", "internal/wayindex/wayindex.go"])
# --- relindex
p("The initial relation stream lists each relation's ways", "The first relation pass writes, per relation in file order, its id, the number of way members and the negated way ids in member order.", "every relation whose member and type lists have equal length", "unbounded", ["cmd/relindex/relindexerinit/relindexer_worker.go", "cmd/relindex/relindexerinit/relindexer_writer.go"])
p("The relation index lists each way's locations", "After all passes every way member of every relation appears in order with its locations from the way index, or with count 0 if the way is absent, independent of the number of passes.", "every relation stream, way index and pass count", "multi-pass composition over all inputs", ["cmd/relindex/relindex.go: rewrite, main"])
p("Relation pass files are chained and cleaned up", "With n>=1 passes each pass reads what the previous one wrote, the last writes the requested output, no file is removed while still needed and no temporary file remains.", "every pass count", "all n", ["cmd/relindex/relindex.go: main, makePassFilename"])
# --- rewritenodes
p("Node rewriting replaces exactly the known refs", "One rewriting pass replaces each non-negative ref that the sub-index resolves by its location and keeps every other ref, preserving the number and order of refs and everything else that the readers keep (the ways' info sections are dropped, as the way reader skips them).", "every block and sub-index", "unbounded", ["cmd/rewritenodes/rewriter/noderewriter_worker.go: Worker"])
p("The number of passes does not change the result", "Rewriting with n passes gives the same refs as rewriting with one pass.", "every input, index and n", "multi-pass composition", ["cmd/rewritenodes/rewritenodes.go: main", "internal/nodeindex/nodeindex.go: SubIndex"])
p("Rewrite pass files are chained and cleaned up", "With n>=1 passes each pass reads what the previous one wrote, the last writes the requested output, no file is removed while still needed and no temporary file remains.", "every n", "all n", ["cmd/rewritenodes/rewritenodes.go: main, makePassFilename"])
# --- tagfilter
p("Tag filtering keeps exactly the wanted nodes and tags", "A node survives iff at least one of its tags is neither in the deletion list nor starts with a deletion prefix; survivors keep exactly those tags, in order; ways and relations are unchanged.", "every block, every tag map", "unbounded", ["cmd/tagfilter/tagfilterer/tagfilterer_worker.go: Worker, keepTag"])
p("Tag filtering accounts for every node and block", "Kept plus dropped equals the nodes read; every input block produces exactly one output block with the same index; the 'pending nodes' panic is unreachable.", "every sequence of blocks per worker", "history of blocks", ["cmd/tagfilter/tagfilterer/tagfilterer_worker.go: Worker"])
# --- decompress
p("Decompression preserves content", "The decompressed file has the same blocks, in the same order, with the same types, and each block's payload equals the original block's uncompressed payload.", "every input file", "unbounded; empty payloads", ["cmd/decompress/decompressor/decompressor_worker.go", "cmd/decompress/decompressor/decompressor_writer.go"])
p("Inflating does not depend on read chunking", "However the decompressor delivers its data in chunks, the returned payload is the stream's bytes when the stream is exactly the declared size; a shorter stream panics.", "every stream and every chunk schedule", "chunk schedules", ["internal/t/blob.go: decodeZLib"])
# --- pbf
p("A block file is split exactly at its frames", "Splitting a file into blocks yields the framed blocks in order with indices 0,1,2,...; concatenating frames written by the writers and splitting them gives back the blocks; trailing or truncated data panics.", "every file / every list of blocks", "unbounded", ["internal/pbf/process.go: processFileWork", "cmd/rewritenodes/rewriter/noderewriter_writer.go", "cmd/tagfilter/tagfilterer/tagfilterer_writer.go"])
p("Reordering restores file order", "Whatever order blocks 0..n-1 arrive in, they leave in index order, each exactly once; if an index is missing when the input closes, it panics.", "every arrival permutation", "n! orders", ["internal/pbf/reorder.go: reorder"])
p("Parallel processing equals sequential processing", "For any number of workers and any interleaving, the writer receives exactly the per-block results in file order.", "every worker count, file, interleaving", "unbounded interleavings", ["internal/pbf/process.go: processFileWork", "internal/pbf/reorder.go"])
p("Processing never deadlocks", "With at least one worker, every run, cancelled or not, reaches completion: some step is always possible and every step makes progress.", "every worker count >= 1, interleaving and cancellation point", "liveness over all schedules", ["internal/pbf/process.go"])
p("Cancellation delivers a prefix", "If cancelled, the writer receives exactly the results of a prefix of the file's blocks, in order, and shutdown completes without the 'not all blocks processed' panic.", "every cancellation point and interleaving", "timing", ["internal/pbf/process.go", "internal/pbf/reorder.go"])
p("The input mapping outlives its users", "The input file is unmapped only after every worker, the reorderer and the writer have finished.", "every interleaving", "use-after-unmap races", ["internal/pbf/process.go"])
p("Progress is monotone and bounded", "The reported position never decreases, never exceeds the file size, and equals it when all blocks were sent.", "every file", "all inputs", ["internal/pbf/process.go: At, Max"])
# --- concurrency misc
p("Concurrent maximum is the maximum", "Any number of concurrent maximum updates leave the variable at the maximum of its initial value and all arguments, and every update completes if it runs alone from any point.", "every interleaving of any number of updates", "CAS races", ["cmd/entitycount/entitycount.go: atomicSetMaximum"])
p("Entity counts are independent of worker distribution", "The block, node, way, relation and ref totals and maxima printed equal those of the file, however blocks are distributed over workers and however their final updates interleave.", "every distribution and interleaving", "schedules", ["cmd/entitycount/entitycount.go: countEntities", "cmd/blockcount/blockcount.go: countBlocks"])
p("Pooled buffers are exclusive and input memory never enters the pool", "A buffer borrowed from the pool has exactly the requested length and is held by one borrower at a time; buffers wrapping input memory are never pooled.", "every sequence of gets/puts by any holders, any pool eviction", "histories", ["internal/pool/bytebuffer.go"])
p("Worker display is eventually exact", "After any interleaving of track/untrack with refreshes, once no update is in flight one refresh makes the displayed workers equal the tracked workers.", "every interleaving", "races between version and list", ["internal/tracker/worker_tracker.go", "internal/tracker/widget_workers.go: RefreshStates"])
p("Whole buffers are written despite short writes", "Writing a buffer appends exactly its bytes to the file for every schedule of short writes, and panics on error or on a zero-byte write.", "every short-write schedule", "schedules", ["internal/iio/wrappers.go: FWrite, FCopy, FWriteSliceI64"])
p("Entity search prints exactly the requested entities", "The entities printed are exactly those whose id is in the requested list, in file order per block.", "every block and id list", "unbounded", ["cmd/entityfind/entityfind.go"])
p("Index dump self-check never reports a mismatch", "On a well-formed index, the dump's extract/search comparison never prints MISMATCH, and the way dump never reports a failed search for the full index.", "every well-formed index", "unbounded", ["cmd/dumpnodeindex/dumpnodeindex.go", "cmd/dumpwayindex/dumpwayindex.go"])
p("Progress bar markup preserves the text", "The marked-up progress line, with markup interpreted, shows exactly the padded text.", "every text, width and fraction", "all strings incl. '%'", ["internal/ui/format.go"])
p("Reinterpreting slices preserves values", "Viewing bytes as 64-bit words or element structs and back preserves the bytes of whole elements and drops only a trailing partial element.", "every byte slice", "unbounded", ["internal/iunsafe/slices.go"])
p("End to end: relation geometry", "Running nodeindex, rewritenodes, wayindex and relindex on a sorted source gives, for each relation and each way member present, the encoded locations of the way's nodes that exist (others kept as ids), without consecutive repeats.", "every sorted source", "composition of four programs", ["cmd/nodeindex", "cmd/rewritenodes", "cmd/wayindex", "cmd/relindex"])
p("Extraction gives exactly the entities of a block", "From every block whose string indices are in range, exactly its nodes (plain and dense), ways and relations are extracted, in order, with coordinate offset + granularity*value, metadata and tags as in the block (a repeated key keeps its last value); an out-of-range string index panics.", "every block", "unbounded blocks, dense layouts and string tables", ["internal/t/primitive_block_nodes.go: ToNodes", "internal/t/primitive_block_ways.go: ToWays", "internal/t/primitive_block_relations.go: ToRelations"])
p("A block parses the same wherever it lies in memory", "If a message (string table, dense nodes, way, relation, primitive block, blob header, blob) parses when its bytes are alone, it parses to the same content with anything behind it in memory (the rest of the mapped file, or an earlier user's bytes in a pooled buffer), whichever sections are skipped, into whichever pooled buffer it is inflated and however zlib delivers the data. Without that premise it is false: a cut-short list is completed from the memory behind it.", "every byte sequence, every memory content behind it, every reader option, every pooled buffer and zlib chunking", "unbounded memory contents; depends on slice capacities that tests never vary", ["internal/t:ReadPrimitiveBlock,ReadWay,ReadRelation,ReadDenseNodes,ReadStringTable", "internal/t/blob.go:ReadBlob", "internal/t/blob_header.go: ReadBlobHeader", "internal/pb/buffer.go"])
p("What an interrupted run leaves behind", "If a command dies at any moment (kill, panic of any goroutine, full disk), its output file is as before the run, or an initial part of the complete output. A partial node or way index is rejected when opened unless every batch had been written and the final header write had begun; a partial block file cannot be read unless cut exactly between two blocks, and then shows exactly the first blocks of the complete output.", "every input, schedule, worker count, cancellation and crash point including torn writes", "crash points and schedules", ["internal/pbf/process.go", "cmd/rewritenodes", "cmd/decompress", "cmd/tagfilter", "cmd/nodeindex", "cmd/wayindex", "cmd/relindex"])
p("No other file is touched", "At no moment of a run, complete, cancelled or interrupted, is any file changed other than the output and its documented temporary/pass files; in particular the input and the index are unchanged if their names differ from those (and the input is lost if it is also the output).", "every command, input, file system, cancellation and crash point", "all file systems and crash points", ["cmd/*", "internal/iio/wrappers.go"])
p("A cancelled run ends normally with the complete output of the first blocks",
  "When the user cancels a command, every block handed to the workers before is still processed: decompress and tagfilter end normally and leave a complete, readable file of what a full run makes of the first k blocks; relindex goes on and leaves the complete relation index of those blocks; rewritenodes goes on with its later passes, each cut short in its turn, and leaves the rewritten first blocks (or panics if a pass got no block); nodeindex and wayindex end normally with an index that lists the entities of the first blocks and holds no location at all, in which no lookup finds anything.",
  "every input file, every moment of cancellation, number of workers, schedule, zlib chunking, pass count",
  "The moment of cancellation and the schedule range over unboundedly many interleavings.",
  ["internal/pbf/process.go: processFileWork", "cmd/rewritenodes/rewritenodes.go: Run", "cmd/nodeindex/indexer/nodeindexer_writer.go: Output", "cmd/wayindex/wayindexer/wayindexer_writer.go: Output", "cmd/relindex/relindex.go"])
p("Timing lookups does not change their answers",
  "With the timing option of rewritenodes, whatever the factor and whatever the clock says, a lookup that returns gives the answer it gives without timing, and a pass that ends writes the same file; with a factor of at least 1.12 (or infinite, negative, NaN) every measurement ends in one of the 200 counters, so the pass ends whenever the untimed one does. (For factors from 0 to 1 a measured lookup never returns, for factors up to 1.0625 a slow lookup panics.)",
  "every factor, every clock reading, every lookup, every float64 rounding",
  "Clock readings and rounding range over 2^64 values per lookup and cannot be controlled by tests.",
  ["internal/nodeindex/nodesubindex.go: FindNode", "internal/nodeindex/nodeindex.go: NewNodeIndex", "cmd/rewritenodes/rewriter/noderewriter_worker.go"])
p("Workers that share buffers do not disturb each other",
  "While the workers of a command run at the same time, taking buffers from the shared pool, letting zlib write into them piece by piece, reading them byte by byte and giving them back, each worker's answer for a block is the one it would compute alone from that block; every block is answered once; if nothing panics when each works alone nothing panics; and no run gets stuck or goes on for ever.",
  "every command's worker function, every way of reading, every file, number of workers, interleaving down to single byte reads, zlib chunking, pool choice and eviction",
  "Data races between workers appear only in particular interleavings of memory accesses.",
  ["internal/pool/bytebuffer.go: Get, Put", "internal/t/blob.go: GetRawData", "internal/pbf/process.go: ProcessFileAsync", "cmd/*/*_worker.go"])
p("The same inputs give the same output",
  "Running a command twice on the same input files, over whatever an earlier run left in its output and temporary files, with any numbers of workers, schedules, zlib chunkings and pool contents, ends the same way both times and writes the same bytes; provided no block inflates to more than it declares, and (except for decompress) no data block reads on behind its end. Without the provisos it is false: such a block can end in success or panic, and in different index contents, from run to run.",
  "every input file, earlier file system content, pair of schedules, worker counts, chunkings and pool contents",
  "Nondeterminism shows only in particular schedules and pool histories.",
  ["internal/pbf/process.go: processFileWork", "internal/t/blob.go: GetRawData", "cmd/decompress", "cmd/tagfilter", "cmd/nodeindex", "cmd/wayindex", "cmd/relindex", "cmd/rewritenodes"])
p("A command starts exactly with acceptable arguments",
  "A command starts exactly when its command line parses, has no stray words and its options fit together (a memory profile rate needs a memory profile; a part of an index is given by a number below the number of parts, both or neither); otherwise it exits, with 0 and the help on standard output exactly when the help was asked for, and with 1 and all faults on standard error else. Part i of c of a complete node index is then dumped exactly if the index is not too small for c parts, and what is printed is what the options ask for: that part, the ranges from the start to before the end, with locations and searches exactly if asked for. (The way index dump accepts negative numbers and then divides by zero; numbers of workers and passes are not checked.)",
  "every parse result, every set of options, every complete node index",
  "All combinations of options and indexes.",
  ["cmd/*/args.go: parseArgs", "internal/args/help.go: IsHelp", "internal/system/args.go: Validate", "internal/ui/args.go: Validate", "cmd/dumpnodeindex/dumpnodeindex.go", "cmd/dumpwayindex/dumpwayindex.go"])
p("What the display says about a worker or writer is true",
  "Whenever the display is redrawn, the activity shown for a worker or writer is the one it is engaged in at a moment of the redraw (or the one it is just changing to or from), and a block number shown is that of a block it had in hand during the redraw; the way shown as i of n is a way of that block unless a new block arrives during the redraw; the amount copied is that of the pieces copied so far, it never exceeds the total shown, and that total is the size of the location file; the counts shown for tagfilter are the nodes kept, the nodes dropped, and the blocks dropped so far. (Not so: the index writers show the number of ranges of a block as its number, and tagfilter shows the previous block's number for a header that is not the first block.)",
  "every sequence of blocks, every worker and writer, every moment at which each piece of the state is read",
  "The redraw runs concurrently with the worker and reads several atomics one after the other.",
  ["cmd/*/*/state/*.go", "cmd/*/*/widget/*.go", "cmd/*/*/*_worker.go", "cmd/*/*/*_writer.go"])
p("The screen comes up, hears every key and goes away",
  "With a positive refresh interval the interface never blocks: until Stop has returned the program can always take a step of its own, and takes only boundedly many per tick and key; when Stop has returned the event loop and the clock have ended and nothing is drawn or handled any more. Keys are handled in the order pressed and none is lost; the command is cancelled exactly when ctrl-C was handled, and panics only after ctrl-A (or with a negative interval, with which every run panics). The layout is always that of the replacement handled last, one the command asked for, the last widget taking the room left. (Two replacements can be handled in the wrong order, and the last may never be.)",
  "every schedule of the goroutines, every sequence of ticks and keys, every queue size, every command's sequence of screens",
  "Deadlocks and lost keys depend on the interleaving of five kinds of goroutines.",
  ["internal/ui/ui.go: NewUI, SetView, HandleEvent, ReplaceWidgets, Stop", "internal/ui/debugui.go", "internal/ui/event_update.go", "cmd/rewritenodes/rewritenodes.go"])
p("Running a program on its own output changes nothing",
  "Decompressing a decompressed file, rewriting the nodes of a rewritten file with the same index and memory target (or any memory target, if the passes of the first run covered the index), and filtering a filtered file each reproduce the file byte for byte, whatever the numbers of workers, interleavings, zlib chunkings and file names of the two runs; the second run cannot panic, and tagfilter drops nothing the second time. Conditions: no block of the file to decompress is empty; no tag or role in the file to filter is the empty string (else it is false: a kept node can lose its tag in the first run and be dropped in the second), and something is left of it.",
  "every well-formed input file, index, memory target, worker counts, schedules and chunkings of both runs",
  "Byte-for-byte equality must hold for every file and every pair of schedules.",
  ["cmd/decompress", "cmd/rewritenodes", "cmd/tagfilter", "internal/t/primitive_block.go: MakePrimitiveBlock", "internal/t/primitive_block.go: Write"])
p("The number of blocks in memory is bounded",
  "At every moment each block handed out is with a worker (one per worker), waiting for an earlier block, or written; results wait only while a worker still has the block that is due; at most as many wait as blocks were handed out since then; while the writer is slow nothing more is kept, and with one worker at most one result waits. With two or more workers there is no bound: one slow block lets the results of the whole rest of the file pile up.",
  "every file, number of workers and interleaving",
  "How much piles up depends on how slow one block is compared to the others.",
  ["internal/pbf/reorder.go: reorder", "internal/pbf/process.go: ProcessFileAsync"])
p("Commands running at the same time do not disturb each other",
  "While other processes change any files but those a command reads or writes, the command ends, with the result it has alone, and leaves its files as it does alone; files it does not write are changed by the others only. So two commands neither of which writes a file the other reads or writes both do what they do alone, in every interleaving of their file accesses; if one dies the other is not disturbed. Building the node index and the way index of one file at the same time is an instance. (A command whose input is still being written by the other is not covered, and can take an unfinished file for a complete one.)",
  "every command, file system, other process, interleaving of single file accesses and moment of death",
  "Interleavings of two processes' file accesses are unbounded.",
  ["cmd/*", "internal/iio/wrappers.go", "internal/pbf/process.go"])
p("Profiling changes nothing but the profiles",
  "With any of the profiling options a command whose files are not the profile files ends as without them and leaves the same files; the profile of a completed run is the one the runtime wrote last; without the options nothing else is touched. (The names are not checked: a memory profile named like the output replaces it, a processor profile named like the input empties it before it is read.)",
  "every command, option set, file system and profile content",
  "All option combinations and inputs; profile data is written at arbitrary moments of the run.",
  ["internal/system/setup.go: Setup", "internal/system/args.go"])
p("The statistics of rewritenodes do not depend on the schedule",
  "The four numbers rewritenodes prints at the end (hint hits, default hits, default misses, deferred misses) are determined by the input file, the node index and the memory target: the same for every number of workers, every way the blocks are dealt to them and every interleaving. In each pass each ref that is still an id counts once: deferred if above the last range of the pass, missed if no range has it, else a hit (a hint hit if its range is that of the last hit in the block, at first the first range). Together they are the number of lookups of all passes, modulo 2^64. (Ids in a gap of a range count as hits though nothing is located.)",
  "every file, index, memory target, number of workers, dealing of blocks and interleaving of the atomic increments",
  "The counters are shared by all goroutines of all passes; a sample of schedules cannot show that the sums never differ.",
  ["internal/nodeindex/nodesubindex.go: findNodeActual", "internal/nodeindex/nodeindex.go: PrintStats", "cmd/rewritenodes/rewriter/noderewriter_worker.go: Worker"])
p("The progress bars tell the truth, within a column",
  "The highlighted bar of a line (of a file, or of pass k of n) is between nothing and the whole line, never gets shorter while a file is processed, ends at most one column from the exact share of the work done, and covers the whole line exactly at the end of the last pass (for n times the file size up to 2^49); between passes it may step back, but by at most one column (and it does: 63 to 62 of 90 columns after pass 14 of 20). What stands out on the screen is this bar, except that nothing stands out when it covers the whole line: at 100 % the bar vanishes. The text says the number of the pass, from 1, and the number of passes.",
  "every file size, position, pass, number of passes and line width up to 2^48; every run of the pipeline; float64 with IEEE 754 rounding",
  "The result depends on rounding errors, which show only for particular combinations of numbers.",
  ["internal/ui/format.go: MarkupAsProgress", "internal/ui/widget/widget_pass_progress.go: update", "internal/ui/widget/widget_process_state.go: update"])
p("Files in the OSM PBF format are read as they are meant",
  "Given the format as its documentation has it (protocol buffers; fileformat.proto and osmformat.proto), independently of this code: every message and every file in it is read with exactly the content the format assigns to it, with the fields in any order, numbers padded or not, info sections skipped, payloads stored or compressed; with any reader options what is skipped is kept as the bytes of the messages. So all that is proved of the programs on files they understand holds of every file in the format. A field that the code does not support (nodes that are not dense, lists that are not packed, indexdata, other compressions, unknown fields) makes the reader panic, it is not dropped. Lists in several pieces are outside: there only the last piece is kept.",
  "every message, file, order of fields, encoding of numbers, reader options and zlib output schedule",
  "The unit tests and the round-trip properties use the code's own writer; a mistake made in both directions, or an encoding the writer never produces, is invisible to them.",
  ["internal/t/way.go", "internal/t/relation.go", "internal/t/dense_nodes.go", "internal/t/primitive_group.go", "internal/t/primitive_block.go", "internal/t/blob.go", "internal/t/blob_header.go", "internal/t/string_table.go", "internal/pbf/process.go", "internal/pb"])
p("Files written are in the OSM PBF format",
  "Everything that is written is in the format as documented: string tables, ways, relations, dense nodes, blocks (assembled, or read with any options and changed), blobs, headers and frames, with the content they were given. rewritenodes makes of a file in the format a file in the format with the same blocks except for the resolved refs; decompress one with the same types, payloads and blocks that can be read without zlib; tagfilter one with the wanted part of the content.",
  "every value, every file, schedule, number of workers and passes",
  "Tests that read files back with the same code cannot tell whether other programs understand them.",
  ["internal/t/way.go: Write", "internal/t/primitive_block.go: Write", "internal/t/blob.go: Write", "internal/t/blob_header.go: Write", "cmd/rewritenodes", "cmd/decompress", "cmd/tagfilter"])
p("A lookup reads logarithmically many entries",
  "A lookup of a node or way id in an index, or a part of it, with fewer than 2^k entries reads at most k+2 entries, whatever the id, the hint and the content (also if the index is not in order); what stands in the other entries cannot change the answer. An index of n nodes has at most n entries.",
  "every index content, part, id and hint",
  "A bound for all sizes cannot be measured; a search that degenerates for some hints or gaps passes any test on small indexes.",
  ["internal/nodeindex/nodesubindex.go: findNodeActual", "internal/wayindex/subindex.go: findLocationsActual"])
p("The index files are small",
  "A completed run of nodeindex on a file with n nodes leaves an index of at most 16+24n bytes, whatever the ids and locations; a completed run of wayindex with n ways and r refs one of at least 16+10n and at most 16+(9+2^shift)n+10r bytes.",
  "every input for which the run completes, all ids, orders, locations and alignments",
  "The worst case (isolated ids, long deltas, full padding) does not occur in sample data.",
  ["cmd/nodeindex/indexer", "cmd/wayindex/wayindexer"])
p("No data races",
  "No two accesses of memory that are concurrent in the sense of the Go memory model conflict: the mapped input file (its unmapping included), what the caller hands to the workers, the results on their way from worker to writer, the counters, the pooled buffers, the progress that the widgets show, whatever the caller uses after Wait, the list of tracked workers and its version, the words in which workers and writers say what they do, and the widgets that show them. Exception: in rewritenodes the size of the file is written while PassProgress may read it; this is the only race, and it exists.",
  "every schedule, number of workers, input, cancellation point, pool behaviour and order of accesses",
  "The race detector only sees the schedules that happen in a test; what is missing here is a happens-before edge, which most schedules do not need.",
  ["internal/pbf/process.go: processFileWork, ProcessFileAsync, Wait", "internal/pbf/reorder.go: reorder", "internal/pool/bytebuffer.go", "internal/ui/widget/widget_pass_progress.go: update", "internal/ui/widget/widget_process_state.go: update", "internal/ui/ui.go: ReplaceWidgets", "internal/tracker/worker_tracker.go: TrackWorker, UntrackWorker, WorkerStates", "internal/tracker/widget_workers.go: RefreshStates", "cmd/nodeindex/indexer/state"])
p("A relation index can be read in only one way",
  "The file that relindex writes is a sequence of little endian 64 bit words: for each relation of the input its id, the number of its ways and for each of these its id, the number of its locations and the locations. No file is the index of two different lists of relations, so whoever reads the output of a run by this format finds exactly the relations of the input, in order, with their ways in member order and the locations that the way index gives for them; the size of the file is determined by these numbers.",
  "every input, way index, number of passes and every pair of lists of relations",
  "That no two contents share a file is a statement about all pairs; there is no reader in this code with which a test could look at the output.",
  ["cmd/relindex", "cmd/relindex/relindexerinit"])
p("Damaged input is never taken for complete",
  "A command that ends normally, without having been cancelled, has read its input from the first byte to the last one, and has unpacked and decoded every block of data in it (decompress: unpacked). So a file in the format that was cut short anywhere but exactly between two blobs, or with a blob that zlib rejects or of which it delivers too little, makes every command panic, in every schedule; and nodeindex and wayindex then never leave an index that is accepted: the output file is as it was before or is rejected.",
  "every input file, every place where it may have been cut, every command, schedule, number of workers and moment",
  "A test tries a few places to cut at; with many workers the panic comes at another moment each time, while the writer has done a different part of its work.",
  ["internal/pbf/process.go: processFileWork", "internal/t/blob.go: decodeZLib", "internal/t/blob_header.go", "cmd/*/*_worker.go", "cmd/nodeindex/indexer/nodeindexer_writer.go", "cmd/wayindex/wayindexer/wayindexer_writer.go"])
p("A pass of relindex never misreads the file of the pass before it",
  "Between its passes relindex keeps the relations in a file of words in which a way takes one word or many, told apart by the sign of the first one. Whatever that file holds, there is at most one way to read it as whole relations; a pass succeeds exactly if there is one (and the file is not empty, and no lookup panics), and then writes just these relations, in order, with the ways it found completed, the ways completed before unchanged and the others left for later, or in the last pass without locations. A file that ends in the middle of a relation makes the pass panic. What a pass writes the next one reads back as what was meant, and the last pass writes a relation index in its format.",
  "every content of the pass file, every way index, pass and number of passes",
  "A test uses the files of a few small runs; a misreading needs a particular sequence of counts, signs and lengths, or a file cut at a particular word.",
  ["cmd/relindex/relindex.go: rewrite, runPasses"])
p("What is printed can be read in only one way, and says what was found",
  "The texts that dumpwayindex, dumpnodeindex, entitycount and blockcount print, and the statistics that rewritenodes and wayindex print, can each be read in at most one way as the report they are; and whoever reads them finds what the program found: for dumpwayindex every way of the index with all its locations, in order, so for the index that wayindex makes every way of the source with the location of each of its nodes; for dumpnodeindex every slot of every range with its id and location exactly and its coordinates rounded to six digits; for entitycount the totals and largest ids of the file; for blockcount the number of blocks; for the statistics the four counts and the bucket of each lookup.",
  "every index and file, every location, id and count, every output text",
  "A test compares the output of a few examples; ambiguity and rounding errors show for particular signs, digits and magnitudes.",
  ["cmd/dumpwayindex/dumpwayindex.go", "cmd/dumpnodeindex/dumpnodeindex.go", "cmd/entitycount/entitycount.go", "cmd/blockcount/blockcount.go", "internal/nodeindex/nodeindex.go: PrintStats", "internal/wayindex/wayindex.go: PrintStats"])
p("The statistics of relindex say what has become of the ways",
  "The four numbers that relindex prints account for every lookup of every pass: in each pass exactly the way members that no earlier pass has found are looked up, in order; a way after the end of the part of the index that the pass has counts as deferred, the first way of the part as a hit at the hint, its other ways as hits, the rest as missing. So the two kinds of hits together are the way members whose way some pass has - if the passes cover the index, those whose way the index has - each counted once however many passes there are. Counting changes nothing that is written, and whoever reads the printed statistics finds these numbers.",
  "every source, way index and number of passes; for a single pass, every content of its input file",
  "A test compares the numbers of a few runs; that no lookup is counted twice or not at all must hold for every sequence of passes and members.",
  ["cmd/relindex/relindex.go: rewrite, main", "internal/wayindex/subindex.go: findLocationsActual", "internal/wayindex/wayindex.go: PrintStats"])
p("What entityfind prints can be read in only one way, and is exactly what the file says",
  "Each line that entityfind prints can be read in at most one way, and the whole output in at most one way, whatever bytes the tags and roles consist of (quotes, backslashes, newlines, commas, braces, invalid UTF-8): strings are read back byte for byte. Whoever reads the output of a finished run finds exactly the requested entities of the file, each as often as it is there, with id, coordinates, nodes, members, types, roles and all tags; entities of which the same is printed are the same; and the same entity is always printed as the same text, although Go goes through maps in random order.",
  "every file, every list of ids, every bytes of tags and roles, every schedule, any idea of which characters are printable",
  "A test compares a few lines; strings that imitate the syntax around them, or are not text at all, and the order of map iteration need all inputs.",
  ["cmd/entityfind/entityfind.go: findEntity", "internal/t/primitive_block_nodes.go: HLNode", "internal/t/primitive_block_ways.go: HLWay", "internal/t/primitive_block_relations.go: HLRelation"])
p("The lines on the screen can be read in only one way, and say what is being done",
  "Each line that the screen shows for a worker, a writer or the file being read can be read in at most one way, as one of a few phrases with numbers in them; and whenever and however slowly the screen is redrawn, a line can be read: it then says what was being done when the redraw looked (for the workers of nodeindex, wayindex, relindex, decompress and rewritenodes and all writers), the block number in it, if it has one, is of a block in hand during the redraw (but for the writers of nodeindex, wayindex and tagfilter, which show other numbers), and a percentage in it is the share done to a tenth of a percent: from 0.0 to 100.0, never going back, 100.0 at the end, NaN for an empty file. A line without a percent sign is shown in full whatever its progress bar; one with a percentage in full exactly if the bar ends within the line, so that at the end its percent sign is missing unless the line is wider than the screen.",
  "every sequence of blocks, every moment and duration of a redraw, every count up to 2^64, every width of the screen, every name of a file",
  "A test looks at a screen now and then; rounding, lengths and the moments of the loads need all values and all interleavings.",
  ["cmd/*/*/widget/widget_state_worker.go: update", "cmd/*/*/widget/widget_state_writer.go: update", "internal/ui/widget/widget_process_state.go: update", "internal/ui/format.go: MarkupAsProgress"])
p("What a progress bar does to a line with any characters",
  "For a line of any characters (a file name can have any), of which some take more than one byte, the screen shows the text of the line, filled up with spaces, exactly if the bar - whose length is counted in bytes - ends between two characters, or there is no bar and no percent sign in the line. If the bar ends within a character, then instead of that character as many replacement characters are shown as it has bytes, and everything else as it is. The line, and the bar, are shorter than the screen asks for by one column for each byte of a character after its first; with ASCII characters only they are not.",
  "every text, every width, every length of the bar (all integers)",
  "Tests use ASCII names; which lengths of the bar cut a character depends on the text, the width and the share done.",
  ["internal/ui/format.go: MarkupAsProgress, EscapePercent", "internal/ui/widget/widget_process_state.go: update"])
p("Power failure while an index is written",
  "After a power failure - which may leave, of each page of a new file, what was in it at any moment, zeros where nothing had been written, and the length of any moment - an index that is accepted is complete. (False: nothing is synchronised. What holds: an accepted index had been completely written and its first page is as it was; every byte is the one written or zero, and the file is not longer; with header and ranges intact, a node index gives a right location or none. But a lost page of ranges makes node lookups answer with the locations of other nodes, and a lost page of locations makes ways appear found with empty paths. Had the file been synchronised before its header, an accepted index would be complete.)",
  "every input, chunking, cancellation, page size of at least 16 bytes, every combination of moments for the pages and the length",
  "A test cannot cut the power, and the combinations of what reached the disk are unbounded.",
  ["cmd/nodeindex/indexer/nodeindexer_writer.go: Output", "cmd/wayindex/wayindexer/wayindexer_writer.go: Output", "internal/nodeindex/nodesubindex.go: FindNode", "internal/wayindex/subindex.go: FindLocations", "internal/nodeindex/index_element.go: LastID, contains"])
p("A run after any number of interrupted runs",
  "After any number of attempts to run a command have been interrupted at any moment - killed, cancelled, or ended by a panic - and have left whatever they had written, running it again ends as if none of them had been: it completes exactly if an undisturbed run would, and then with the same bytes in all files, no temporary file being left. So the four commands of C69, each after any number of interrupted attempts, make the right relation index. (With another number of passes or memory target than the attempts the result is the same as well, but pass files of the attempts stay.)",
  "every history of interrupted attempts, each with its own schedule, number of workers, cancellation and moment; every input; every previous content of the output and temporary files",
  "The histories are unbounded sequences of crash points.",
  ["cmd/nodeindex/nodeindex.go", "cmd/wayindex/wayindex.go", "cmd/relindex/relindex.go", "cmd/rewritenodes/rewritenodes.go", "cmd/tagfilter/tagfilter.go", "cmd/decompress/decompress.go", "internal/iio/wrappers.go: OsCreate"])
p("Sources that are not sorted, or in which ids repeat",
  "Nothing checks that the source is sorted by id without repeats. Whatever the order of its nodes and ways, and however often an id occurs, both indexers complete and leave files that open, and no lookup, in any pass and with any hint, ever gives a location (or path) other than that of an element of the source with the id asked for. If ids never go down (a full-history file, with several versions of an element one after the other), lookups in the whole index find an id exactly if the source has it, with one of its versions. rewritenodes with such an index completes, with any number of passes, and replaces refs only by locations of nodes with that id (in the never-down case, with one pass, every ref to a node of the source). If ids do go down, elements that are in the file may not be found (shown for nodes 5, 2 and ways 8, 3).",
  "every order and multiplicity of ids of at least 2 (ways: within the format's limits), every block structure, id, non-negative hint and pass",
  "There are unboundedly many orders; the binary search over ranges that are not in order, and the merging of neighbouring ids, have to be followed for each.",
  ["cmd/nodeindex/indexer/nodeindexer_worker.go: Worker", "internal/nodeindex/nodesubindex.go: FindNode", "cmd/wayindex/wayindexer/wayindexer_worker.go", "internal/wayindex/subindex.go: FindLocations", "cmd/rewritenodes/rewriter/noderewriter_worker.go"])
p("The relation index with whatever way index",
  "relindex does not check the way index it is given. Whatever that file holds (the index of an unsorted or history file, or a damaged one that still opens) and however many passes are made, relindex completes exactly if every pass can be made and no lookup of a way member not found by an earlier pass panics; then its output is a relation index of exactly the relations of the source, in order, each with its way members in order, and each of these with the locations given by the first pass that finds it, or none if no pass does. With the index of a source in any order each list is therefore empty or the path of a way of the source with that id; if way ids never go down and the passes cover the index, it is empty only for ways the source does not have.",
  "every way index file that opens, number of passes, source with relations whose member lists have equal lengths and positive way ids",
  "The result is the composition of an unbounded number of passes over intermediate files, each with its own part of the index, over unboundedly many index files most of which no indexer would write.",
  ["cmd/relindex/relindex.go: rewrite, main", "internal/wayindex/wayindex.go: SubIndexWithScaledPass", "internal/wayindex/subindex.go: FindLocations"])
p("The chain of commands on a source in any order",
  "Nothing checks that a source file is sorted. For a source whose nodes, ways and relations are in any order and may repeat, nodeindex, rewritenodes, wayindex and relindex one after the other all complete (if the passes over the node index can be made; with no memory target they always can), and leave a relation index of exactly the relations of the source, in order, with their way members in order. No geometry in it is wrong: each member has no locations at all, or the path of a way of the source with that id, in which every ref is the location of a node of the source with that id or is left as it was. If node ids and way ids never go down (a history file) and the passes cover the node index, nothing is missed either: only ways which the source does not have are empty, and every ref to a node of the source is the location of one of its versions.",
  "every source file with complete dense nodes, not too many nodes, refs or members; any order and repetition of ids; any memory target; up to 2^shift passes over the way index; schedules, pooled buffers",
  "Four programs over unboundedly many unsorted files; the lookups use binary searches whose answers on unsorted data depend on hints left by earlier lookups.",
  ["cmd/nodeindex/nodeindex.go: main", "cmd/rewritenodes/rewritenodes.go: main", "cmd/wayindex/wayindex.go: main", "cmd/relindex/relindex.go: main"])
p("Power failure while a file of blocks is written",
  "After a power failure - which may leave, of each page of a new output file, what was in it at any moment, zeros where nothing had been written, and the length of any moment - what can be read of the output of decompress, tagfilter or rewritenodes are the first blocks of the complete output. (False: a page lost inside a block leaves a file that is accepted, with other content, for instance a way with another name. What holds: every byte is the one written or zero, and the file is not longer; and if no header of a block is on two pages, then the file is rejected or is read as the first blocks of the complete output, of the same kinds and lengths, in which only bytes have become zeros. So a page lost where a block begins is always noticed.)",
  "every input, schedule of zlib, cancellation, number of passes, page size, every combination of moments for the pages and the length",
  "A test cannot cut the power, and the combinations of what reached the disk are unbounded.",
  ["cmd/decompress/decompressor/decompressor_writer.go", "cmd/tagfilter/tagfilterer/tagfilterer_writer.go", "cmd/rewritenodes/rewriter/noderewriter_writer.go", "internal/pbf/process.go: processFileWork", "internal/t/blob_header.go: ReadBlobHeader"])
p("Errors of the operating system do not go unnoticed",
  "If any call by which a command opens, creates, reads or writes a file fails, at any point of its run, or the disk is full, the command panics; so a command that ends normally has done everything. What is then left is what an interrupted run leaves: of decompress, tagfilter, rewritenodes and relindex a first part of the output (decompress on a full disk: as much of it as there was room for), of nodeindex and wayindex a file that is rejected, or one with at least a byte of its header. Only a file between passes which cannot be removed is not noticed: it is left over, everything else is as it should be.",
  "every program that reaches files through iio, every input, schedule, every pattern of failing calls and partial writes, every room on the disk, every set of files that cannot be removed",
  "A test would have to make each single call fail, and the patterns are unbounded.",
  ["internal/iio/wrappers.go: FWrite, FWriteSliceI64, OsCreate, OsOpen, OsRemove, OsRemoveTry", "cmd/rewritenodes/rewritenodes.go", "cmd/relindex/relindex.go", "cmd/decompress/decompress.go", "cmd/tagfilter/tagfilter.go", "cmd/nodeindex/nodeindex.go", "cmd/wayindex/wayindex.go"])
p("The order of tagfilter and rewritenodes does not matter",
  "Rewriting a file with an index and filtering the result gives the same content, block by block, as filtering it first and rewriting what is left, and the same number of blocks is dropped, if all four runs end normally; also when the two rewriting runs have different memory targets, provided that their passes cover the index. The bytes of the two outputs are in general not the same. There is one case in which only one of the orders ends normally: if tagfilter leaves no block (which needs a file without a header block) its output is empty and rewritenodes panics on it.",
  "every file in the format, every index and memory target, every zlib, every schedule of the goroutines in each of the four runs, all file names (the filtered file not being the index)",
  "Equality of two composed programs on all files; a test compares the two orders on a few.",
  ["cmd/tagfilter/tagfilterer/tagfilterer_worker.go", "cmd/tagfilter/tagfilterer/tagfilterer_writer.go", "cmd/rewritenodes/rewriter/noderewriter_worker.go", "cmd/rewritenodes/rewritenodes.go"])
p("Only the content of the input matters",
  "If two input files have the same content (headers, and for each block string table, groups, entities and numbers) but are encoded differently - compressed or not, fields in another order, other ways of writing the same numbers - then each command does the same with both: nodeindex, wayindex, relindex (with the same way index) and tagfilter end the same way on both, and if they end normally the output files have the same bytes; entitycount prints the same numbers and entityfind the same entities; of rewritenodes the outputs have the same content. In particular the indexes made of a file and of the same file decompressed are the same.",
  "every two files in the format with the same content, every zlib, all schedules, numbers of workers and points of cancellation, all indexes, all file names and other contents of the disk",
  "Equality of two runs over all pairs of encodings; a test can compare a few encodings of a few files.",
  ["cmd/nodeindex/indexer/nodeindexer_worker.go", "cmd/wayindex/wayindexer/wayindexer_worker.go", "cmd/relindex/relindexerinit/relindexer_worker.go", "cmd/tagfilter/tagfilterer/tagfilterer_worker.go", "cmd/rewritenodes/rewriter/noderewriter_worker.go", "cmd/entitycount/entitycount.go", "cmd/entityfind/entityfind.go", "cmd/decompress/decompressor/decompressor_worker.go"])
p("Never more than two files between passes",
  "At every moment of a run of relindex or rewritenodes, however many passes it makes - also if it panics, is cancelled, or is stopped there - the files on the disk are those that were there before, the output, and at most two files between passes, with consecutive numbers: each pass removes its input before the next one creates its output. So the space a run takes does not grow with the number of passes, and a run which is stopped leaves at most two files to clean up.",
  "every moment (every prefix of the file operations, half-done writes included) of every run: every input, index, schedule, point of cancellation, number of passes (or memory limit), and every disk before",
  "Crash points of runs of any number of passes; a test can look at the disk at the end.",
  ["cmd/relindex/relindex.go: main, rewrite", "cmd/rewritenodes/rewritenodes.go: main", "internal/iio/wrappers.go: OsRemove, OsRemoveTry"])
p("Filtering tags does not change the indexes of ways and relations",
  "wayindex makes the same way index, byte for byte, of a file and of what tagfilter made of it (or panics on both), and relindex, with the same way index, the same relation index: tagfilter drops nodes and whole blocks and encodes everything anew, but keeps all ways and relations with their ids, references and members, in their order. Also entitycount prints the same numbers of ways, relations and references, and the same largest ids of ways and relations. This holds if the filtered file is not empty, and it is not if the file has a header block.",
  "every file in the format, every zlib, all schedules in each of the runs, every shift and number of passes, every way index, all file names and other contents of the disks",
  "Equality of two composed programs on all files and schedules; a test compares a few.",
  ["cmd/tagfilter/tagfilterer/tagfilterer_worker.go", "cmd/tagfilter/tagfilterer/tagfilterer_writer.go", "cmd/wayindex/wayindexer/wayindexer_worker.go", "cmd/wayindex/wayindexer/wayindexer_writer.go", "cmd/relindex/relindexerinit/relindexer_worker.go", "cmd/relindex/relindexerinit/relindexer_writer.go"])
p("Rewriting does not change the indexes of nodes and relations",
  "nodeindex makes the same node index, byte for byte, of a file and of what rewritenodes made of it with any index and memory target, and relindex, with the same way index, the same relation index; if one of the two runs panics, so does the other. entitycount prints the same numbers for both. So the node index of a rewritten file is as good as that of its source.",
  "every file in the format, every index (in order, with locations as nodeindex makes them), memory target, zlib, all schedules and points of cancellation of the index programs, all file names and other contents of the disks",
  "Equality of two composed programs on all files, indexes and schedules; a test compares a few.",
  ["cmd/rewritenodes/rewritenodes.go", "cmd/rewritenodes/rewriter/noderewriter_worker.go", "cmd/nodeindex/indexer/nodeindexer_worker.go", "cmd/nodeindex/indexer/nodeindexer_writer.go", "cmd/relindex/relindexerinit/relindexer_worker.go"])
p("What no command changes",
  "However often and in whatever order a file is put through decompress, tagfilter and rewritenodes (each run complete, with any index and memory target): the result is again a file in the format, not empty; it has the same ways, by id and number of references, and the same relations, by id, members and member types, in the same order; relindex, with the same way index, makes the same relation index of it, byte for byte, as of the first file; and entitycount prints the same numbers of ways, relations and references and the same largest ids of ways and relations. If rewritenodes is not among the commands, wayindex makes the same way index; if tagfilter is not among them, nodeindex makes the same node index. (decompress: of payloads that are not empty and not near 2^31 bytes; tagfilter: if something is left.)",
  "every file in the format, every finite history of runs, with every schedule, zlib, index, memory target, file names and disk in each run",
  "Histories of any length; a test runs a few of length one or two.",
  ["cmd/wayindex/wayindexer/wayindexer_worker.go", "cmd/nodeindex/indexer/nodeindexer_worker.go", "cmd/decompress/decompressor/decompressor_worker.go", "cmd/tagfilter/tagfilterer/tagfilterer_worker.go", "cmd/rewritenodes/rewritenodes.go", "cmd/relindex/relindexerinit/relindexer_worker.go", "cmd/entitycount/entitycount.go"])
with open("/verif/properties.jsonl","w") as f:
    for x in P: f.write(json.dumps(x)+"\n")
for x in P: print(x["id"], x["title"])

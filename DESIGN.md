# Formal model of squizzling/osmindex in Lean 4

## 1. Trusted base

* **Lean 4.33.0's kernel.** No axioms of our own, no `native_decide`, `bv_decide` or `implemented_by`. Every property
  theorem depends on at most `propext`, `Classical.choice` and `Quot.sound` (section 7 says how to list them). Only
  Lean core is imported, except in `Lemmas/{Timing,Float,Progress,Text}.lean`, which use a few Mathlib lemmas about ordered fields.
* **The hand translation Go → Lean.** Every definition under `lean/Verif/Model` carries a comment with the file and lines
  it models and, where it simplifies, says so. The code was read, never run.
* **The semantics of Go assumed by the translation:** 64-bit `int`, two's-complement wrap-around, slices as
  pointer/len/cap (reslicing is bounded by cap, indexing by len), shift counts, truncated division, panics, unbuffered
  channel rendezvous with arbitrary choice, `sync.WaitGroup`, mutexes, sequentially consistent `sync/atomic`,
  `sync.Pool` as a bag that hands out or drops anything; a little-endian machine (ENCODING.md supports no other).
* **The environment assumed:** a file is a byte sequence with a position; a write appends at the position and may be
  short; an mmap shows the bytes the file has, has capacity = length, and of an empty file panics; removing a missing file
  panics; `compress/zlib` is *some* function from compressed to uncompressed bytes delivered in *arbitrary* pieces;
  a crash leaves the file as after some prefix of the write trace, the last write possibly in part.

## 2. Layout (`lean/Verif`)

| directory | content |
|---|---|
| `Go.lean` | result monad `Res` (`ok`, `panic`, `hang`), slices with spare capacity, byte order |
| `Model/*` | the model, function by function |
| `Spec/*` | small independent specifications used in theorem statements |
| `Lemmas/*` | helper lemmas and proofs |
| `Props/*` | the property theorems, named `Cnn_…`, with examples or witness theorems that show that their hypotheses are met by concrete non-trivial cases |

`properties.jsonl` is generated by `tools/props.py`, `MANIFEST.json` by `tools/manifest.py` (from the theorem names and
`tools/status.json`). `seeded/LOG.jsonl` is the record of wrong programs the theorems were tested against.

## 3. Modelling conventions

* `uint64/int64/uint32/int32/byte` are Lean's `UInt64/Int64/UInt32/Int32/UInt8` (exact wrap-around). Go `int` cursors
  are `Int`, wrapped explicitly to 64 bits where Go could overflow.
* A `panic` (explicit, index out of range, nil dereference, failed type assertion, `iio` error) is the result `panic`.
  A parse loop which runs more often than there are bytes is `hang`.
* A `[]byte` being parsed is a `Slice` (visible bytes + spare capacity), because `buf[i:j]` is checked against the
  capacity, not the length. A `[]byte` being built is a `List UInt8`.
* Go strings are byte lists; maps are association lists or functions, whose order is the (arbitrary) iteration order;
  theorems quantify over all orders.
* Sorting (`sort.Slice`) is a merge sort; a uniqueness theorem says that any sorted permutation is the same list.
* Goroutines and channels are labelled transition systems; theorems quantify over all executions (`Reachable`).
* Files are operated on by programs (`Prog`) which emit a trace of operations (`FsOp`); a crash is a prefix of the trace.
* Where a command is stated as a function (`Programs`, `Interrupt`), a theorem `…_any_schedule` says that every complete
  run of the concurrent model, with any number of workers, performs exactly its file operations.

## 4. What is modelled and what is not

| Go | model | remarks |
|---|---|---|
| `internal/pb/*` | `Model/Pb` | all functions; varint unrolled as in the code |
| `internal/t/{way,relation,dense_nodes,string_table,primitive_group,primitive_block,blob,blob_header,reader}.go` | `Model/T`, `Model/Raw` | readers with all skip options, writers, blob inflation |
| `internal/t/string_table_builder.go`, `primitive_block_{nodes,ways,relations}.go` | `Model/Hl`, `Model/T` | both directions |
| `internal/morton` | `Model/Morton` | table-driven |
| `internal/nodeindex`, `internal/wayindex` | `Model/NodeIndex`, `Model/WayIndex` | see `Model/Timing` for the timing branch of the lookups |
| `internal/pbf/{process,reorder}.go` | `Model/Pbf` | transition system |
| `internal/pool` | `Model/Pool` | transition system |
| `internal/tracker` | `Model/Tracker` | transition system |
| `internal/iio` | `Model/Fs` | short writes, errors |
| `internal/iunsafe` | `Model/Iunsafe` | slice headers over a memory |
| `internal/ui/format.go` | `Model/Ui` | floating-point boundary = arbitrary value |
| `cmd/nodeindex`, `cmd/wayindex` | `Model/NodeIndexer`, `Model/WayIndexer`, `Model/Programs` | worker, writer, whole command |
| `cmd/relindex` | `Model/RelIndex`, `Model/Programs` | initial stream, passes, whole command |
| `cmd/rewritenodes` | `Model/Rewrite` | worker, writer, passes, whole command |
| `cmd/tagfilter`, `cmd/decompress` | `Model/TagFilter`, `Model/Raw`, `Model/Interrupt` | whole commands |
| `cmd/entitycount`, `cmd/blockcount` | `Model/Count` | goroutines and atomics |
| `cmd/entityfind` | `Model/Find` | text of a printed entity in `Model/TextFind` |
| `cmd/dumpnodeindex`, `cmd/dumpwayindex` | `Model/Dump` | text of a printed line in `Model/Text` |
| `cmd/*/*/state`, `cmd/*/*/widget` | `Model/Display` | list of atomic steps of a single writer; a redraw reads each value at its own moment |
| `internal/ui/ui.go`, `debugui.go`, `event_update.go` | `Model/Screen` | tcell v1.4 as its source describes it: event queue, `PostFunc`, `Quit`, `BoxLayout` |
| cancellation, interruption of every command | `Model/Interrupt` | |
| `cmd/*/args.go`, `internal/args`, `internal/{system,ui}/args.go` | `Model/Args` | go-flags' result is an arbitrary value |
| counters and `PrintStats` of `internal/nodeindex` | `Model/Stats` | increments returned block by block; dealing of blocks to workers and interleaving in `Spec/Stats`; the text printed is in `Model/Text` |
| `internal/ui/format.go` (float part), `internal/ui/widget/widget_pass_progress.go`, `widget_process_state.go` | `Model/Progress` | float64 computed exactly (unbounded exponents); `int` of NaN arbitrary; the text of the file's line is given |
| `internal/nodeindex/nodesubindex.go`, `internal/wayindex/subindex.go` with the entries read | `Model/Cost` |
| `internal/pbf/process.go`, `reorder.go`, `internal/pool/bytebuffer.go`, widgets: events of the memory model | `Model/Race` |
| `internal/tracker/*.go`, `cmd/*/*/state/*.go`, `cmd/*/*/widget/*.go`: events of the memory model | `Model/RaceTracker` |
| `fmt.Printf`/`fmt.Println` calls of `cmd/dumpwayindex`, `cmd/dumpnodeindex`, `cmd/entitycount`, `cmd/blockcount`; `PrintStats` of `internal/nodeindex`, `internal/wayindex` | `Model/Text` | the verbs as functions to characters; the bounds of a timing bucket are arbitrary texts without spaces or newlines; run times not modelled |
| counters of `internal/wayindex` during `cmd/relindex` | `Model/RelStats` | increments returned pass by pass; one goroutine |
| `fmt.Printf("%#v")` of `cmd/entityfind` | `Model/TextFind` | `fmt` and `strconv.Quote` as documented; `strconv.IsPrint` arbitrary except that a newline is not printable; UTF-8 decoding is Lean core's |
| `fmt.Sprintf` in `cmd/*/*/widget/*.go`, `internal/ui/widget/widget_process_state.go` | `Model/TextLines` | `%d` and `%2.01f` as documented, float64 as in `Model/Progress` |
| `internal/system/setup.go`, several processes at once | `Model/Alongside` | a command as a tree of single file accesses; profile data arbitrary, written at arbitrary moments |
| `internal/iio/wrappers.go` with an operating system that reports errors; `cmd/rewritenodes/rewritenodes.go`, `cmd/relindex/relindex.go` with files that cannot be removed | `Model/Faults` | failing `Close` and `Unmap` not modelled; a failing `OsCreate` has not emptied the file |
| timing of lookups (`nodesubindex.go`, `nodeindex.go`, `wayindex/subindex.go`) | `Model/Timing` | float64 = rationals with an abstract rounding |
| workers with shared buffers (`pool`, `blob.go`, workers) | `Model/Shared` | memory as byte lists per allocated array; reads of single bytes |

**Not modelled:** the terminal library (beyond tcell's documented event loop, layout and markup), the go-flags parser, what the
profiler writes, the processor's time-stamp counter (readings are arbitrary), overflow of float64 exponents, zlib's algorithm, errors of the operating system other than "panics", reordering of
writes by a power loss other than to the two indexes (C100; its page-wise model is an assumption about the file system), exhaustion of memory, files which change while they are mapped, printed run times.

## 5. The properties

Status **P** proved, **p** partial. Every partial property is partial because the *claim is false of the code*: the
counterexample is itself a theorem (`…_false…`), and the largest true part — where possible the exact condition, as an
"if and only if" — is proved under the suffix `_partial` or as `…_exact`.

| id | | what is modelled and how it is proved |
|---|---|---|
| C01–C03 | P | varints and zigzag unrolled on `UInt64`; equality with a recursive base-128 specification on `Nat` |
| C04–C07 | P | packed lists, delta lists, embedded messages, strings on slices; induction with the cursor lemma "the rest of the buffer is enc ++ rest" |
| C08 | p | overrunning lengths: false because slicing is bounded by capacity; proved without spare capacity |
| C09 | p | termination: false for a section of length ≥ 2^63 (skipped backwards, endless loop); proved for all other inputs |
| C10–C15 | P | Read ∘ Write of every message; generic field-loop lemma |
| C16–C17 | P | options only skip (simulation of two loops); unknown fields panic |
| C18, C19 | P | string table builder; permutation and sortedness |
| C20, C21 | p | index 0 is the empty string / nodes survive assembly: false if "" is itself added (frequency wraps) |
| C22–C24 | P | ways, relations, determinism, dense key/values |
| C25, C26 | P | Morton code; bit-level extensionality |
| C27 | p | count/offset packing: false at count 2^24 exactly |
| C28–C30 | P | node lookup exact, hints, counters; invariant of the binary search |
| C31 | p | passes cover the index: false; exact condition L % n < c ≤ L/n + L % n |
| C32 | P | passes respect the memory target |
| C33 | p | node index answers: false for ids 0 and 1 (sentinel wraps); proved from 2 on; for ids from 0 on, what the index contains exactly (`C33_exact`, over Spec/LowIds) and that it is right iff no id is 0 or 1 (`C33_iff`) |
| C34, C35 | P | file layout; every crash prefix is rejected |
| C36 | p | cancelled indexing: false, the header is still written; exact description of what is left |
| C37 | p | way id/offset packing: false exactly at 2^31 and 2^33 |
| C38–C40, C42 | P | way lookup, alignment, answers, crash prefixes |
| C41 | p | way passes cover: false; exact condition |
| C43, C45 | P | relation stream; pass files chained and removed |
| C44 | p | relation index: exact result; complete when the passes cover (C41) |
| C46, C48 | P | node rewriting of a whole file; pass files |
| C47 | p | number of passes irrelevant: false (C31); exact result for every count |
| C49 | p | tag filter keeps the wanted: false for empty values (C20) |
| C50 | P | tag filter accounting |
| C51 | p | decompression preserves content: false for an empty payload |
| C52 | P | inflating is independent of chunking; induction over the schedule |
| C53–C59 | P | framing, reorder, parallel = sequential, no deadlock, cancellation, unmapping, progress; invariants of the transition system, rank function for termination |
| C60 | P | atomic maximum; invariants |
| C61 | p | counts independent of schedule: maxima false for negative ids; also on the format itself (`C61_format`, `C61_format_completes`, `C61_blocks_format`) |
| C62–C64 | P | pool, worker display, short writes |
| C65, C66 | P | entity search (also on the format itself, `C65_format`), index dumps |
| C67 | p | progress markup: false at 100 %; exact condition |
| C68 | P | slice reinterpretation |
| C69 | p | end to end; composition of four commands where passes cover (any memory target; relindex on the source or on the rewritten file: Props/Whole) |
| C70, C71 | P | extraction of entities; parsing independent of the memory around |
| C72–C74 | P | interrupted and cancelled runs of all commands |
| C75 | P | timed lookups; float64 as rationals with an arbitrary monotone rounding of relative error 2^-53, clock readings arbitrary |
| C76 | P | one transition system of pipeline, pool, memory and byte-wise reads; refinement into the pipeline with atomic workers, rank for termination |
| C77 | P | relational program logic over pairs of runs and file systems (`Rel P Q p q`); blocks trimmed of spare capacity; two counterexamples without the provisos |
| C78 | P | parser result as an arbitrary value; each `parseArgs` as a function to exit code and texts; iff for acceptance; cut points of the node index for the dump |
| C79 | p | ghost-state automaton over the atomic steps of each worker and writer; partial: index writers show the number of ranges as block number, tagfilter headers behind the first block |
| C80 | P | transition system of main, ticker, event loop, posting goroutines and terminal; invariant, rank, order of events |
| C81 | P | what a pass writes is `Settled`: each block is the encoding of its own content; processing a settled file reproduces it (`Lemmas/Idempotent`) |
| C82 | p | accounting invariant of the pipeline; partial: false in general (the reorderer keeps any number of results), bounds under a bounded delay and for one worker |
| C83 | P | every command as a tree of single file accesses (`Code`) whose meaning is the command's program; frame lemma for steps of other processes; interleaving of two trees |
| C84 | P | profiling as a wrapper which creates, and at any moment appends to, the profile files; corollary of the frame lemma of C83 |
| C85 | P | rewritenodes with the increments of each block returned, shown to be the same run; closed form of the counts of a block; counters as a sum over any dealing of blocks and any interleaving |
| C86 | P | float64 as rationals rounded to 53 bits, ties to even (its error bounds, monotonicity and exactness proved); composition of relative errors; the sum of the last pass rounds to at least 1; C67 for what is shown |
| C87 | P | the format in `Spec/Proto`, `Spec/OsmFormat` (relations between bytes and values, no reference to the code); induction over the fields of a message with the invariants of the reading loops; a second, executable parser of the format, proved sound, for the examples |
| C88 | P | the byte strings the writers append (from C10-C15) are messages; blocks via `ShowsBlock`; rewritenodes with "conforms" as an additional invariant of the passes, the content by uniqueness |
| C89 | P | the lookups with the positions read (`Model/Cost`), proved equal to those of C28/C38; halving by induction on the rounds; positions not recorded are irrelevant |
| C90 | P | counting invariant of the worker's loop (ranges and gaps at most one per node; bytes per way), the file layouts of C34/C40 for arbitrary batches |
| C91 | part | the pipeline's steps with the events of the Go memory model (`Model/Race`; happens-before in `Spec/Race`); accesses are steps that a goroutine may make at any time while it is in the part of the code that makes them; invariant: what each goroutine knows (`Lemmas/Race`), ownership of results and buffers, transfers by messages, `Wait`, `close`, `Put`/`Get`. The tracker and the state words in a model of their own (`Model/RaceTracker`: any number of workers, the mutex, the terminal's goroutine): invariant that whoever has the mutex knows all accesses of the list and how the words of the workers in it were made. One exception (finding 28), proved to be the only one |
| C92 | yes | the format as words and rows, without the model (`Spec/RelFile`); words are prefix-free by length, rows by their counts, hence unique; C44 gives the file |
| C93 | yes | a file format prefix that splits ends at a frame boundary (induction over `IsFile`); a completed `process` has split the file and done the work for each block; C72 for what is left behind. (That a file cut exactly between blobs is accepted is part of the format; that the checksum of a zlib stream is not looked at is finding 29.) |
| C94 | yes | the specification (Spec/RelPass) is a grammar of the words; the loops over ways and relations are inverted (success gives a derivation) and run (a derivation gives success); the grammar is a prefix code, hence unique |
| C95 | yes | the specification (Spec/Text) is a grammar of numerals, lines and reports; the texts of the model (Model/Text: `%d`, `%x`, `%f`, `%v` of slices) satisfy it, and it is unambiguous; composed with C66, C61, C60, C41 and C85; the float64 division and `%f` are IEEE rounding to nearest even with exact rationals |
| C96 | yes | the programs of Model/RelIndex are extended by the increments they make (erasure proved: same runs); a pass counts the pending ways of its input (with C94), the passes chain as in C44 |
| C97 | yes | a grammar of the printed Go expressions (`Spec/TextFind`), proved unambiguous with its strings prefix-free; `%#v` and `strconv.Quote` as functions to characters; composed with C65 |
| C98 | yes | the phrases of each line as a list of forms (`Spec/TextLines`), proved to be distinguishable for every filling; the texts of the widgets as functions of the values loaded; composed with C79 (what was being done), C86 (the bar) and C67 (the markup) |
| C99 | yes | the bytes of `MarkupAsProgress` read back as characters the way Go does (`runes` in `Spec/Utf8Bar`, with Lean core's UTF-8 decoder), then tcell's markup; by cases on where the end of the bar falls |
| C100 | P | the trace of file operations of the two index writers; what a power failure leaves of the file is a relation on that trace (`AfterPowerLoss` in `Spec/PowerLoss`: length and pages of any moments); by induction over the trace the file only grows behind sixteen zeros until the header; counterexamples by the layout of concrete and of all small way indexes |
| C101 | P | `Attempts` in `Spec/Restart`: any sequence of crash states (C72) of the command or of states in which a concurrent run dies; each touches only the command's own files (C73), so the last run is a repeated run (C77), and the pass and temporary files are gone afterwards (C34, C45, C48); the four commands by inserting attempts into the proof of C69 |
| C102 | yes | `AnyOrder`, `NeverDown`, `NodeAt` in `Spec/Unsorted`; invariant of the indexer's fold without the order (slots in sequence, each its node's or of an id skipped between two neighbours), binary search over arbitrary ranges (finds a range that has the id or nothing; complete if the ranges climb); rewriting by a relation between refs (`ButRefs`) kept by every pass, as answers now depend on hints; `C102_nodes_false`, `C102_ways_false` for sources that go down |
| C103 | yes | `PassFinds`, `PassMisses`, `FirstFound` in `Spec/AnyWayIndex`; `C94` for each pass (what it reads and writes for any answers of the index), induction over the passes with the state "what the first i passes found"; the answers of the indexes of unsorted sources from C102; `C103_false` for a source whose ways go down |
| C104 | yes | `WaysRoom` (room whatever becomes of the refs) and `PathFrom` in `Spec/UnsortedChain`; C102 for the node index and the rewritten file (a relation between contents, `ButRefs`), `works_replaced`: the way indexer sees the rewritten ways, `C103_passes_cover`, C103 for the relation index |
| C105 | P | `Spoiled`, `HeadersOnOnePage` in `Spec/PowerLossBlocks`, `AfterPowerLoss` of C100; at every moment the file is some whole blocks and perhaps a header (`Part`), so a header on one page is intact or zero, and a zero header is an empty one, whose kind is rejected (`walk`); bytes: C72; `C105_false`: the way's name, `losePage` |
| C106 | yes | `Faulty`, `written`, `leftByRewrite`, `leftByRelindex` in `Spec/Faults`; `Code.under` gives each access to a file of a `Code` tree (C83) an answer, `Code.onDisk` gives the writes a disk with some room; every failing write is a crash point of the trace (`CrashState`), so C35, C42, C72 apply; `C106_write` ties the answers to `FWrite` and its partial writes; removals that fail: runs agree outside of the pass files (`AlikeBut`) |
| C107 | yes | both programs on content (`IsOsmContents`): `filt` removes the nodes without interesting tags and `mapRefs` replaces references, and the two commute (`filts_mapRefs`), block by block and over the passes (`runPasses_done`); one memory target, or two whose passes cover the index (C31); `C107_nothing_left` and `C107_false_of_bytes` show that neither the hypothesis that the runs end normally nor `content` instead of `bytes` can be dropped |
| C108 | yes | content as in `Spec/OsmFormat` (`IsOsmFile`, `IsOsmContents`); what a worker makes of a block is a function of its content (`works_source`, `works_sends`, `works_finds`), so the runs agree (`SameRun`, C77) also if they panic or are cancelled; rewritenodes passes on what it does not decode, so only its content is compared (if both runs end normally) |
| C109 | yes | the cancellable programs of `Model/Interrupt`; an upper bound on the files that exist (`OnlyNew`) is carried through the passes by induction with `Prog.always_bind`; the example runs relindex with three passes in the kernel to show that two files do exist at once |
| C110 | yes | composition of C87 (decoding of a file in the format) with what tagfilter leaves of each block (C107): the index workers look only at (id, refs) of ways and (id, members, types) of relations, which survive the re-encoding; dropped blocks send nothing that is written |
| C111 | yes | composition of C87 with what rewritenodes leaves of each block (`mapRefs`): the workers of nodeindex and relindex send the same for a block and for the block with other refs |
| C112 | yes | `Processed` (`Spec/Processed`): the reflexive transitive closure of complete runs of the three programs; induction over the history with the invariant that the file is in the format and that ids, numbers of refs and relations are the same, and the parts of ways unless rewritenodes was run, the parts of nodes unless tagfilter was run |

## 6. Findings

Behaviour of the code which contradicts what a user would expect, each proved as a theorem about the model:

1. `NewCountOffset` accepts count 2^24 and corrupts the offset (`C27_false_at_2_24`).
2. `MakeIndexData` accepts way id 2^31 and offset 2^33 and corrupts them; negative ids are not rejected (`C37_false`).
3. Node ids 0 and 1 at the start of a block collide with the "no range yet" sentinel: a range is lost and later
   locations shift (`C33_false`).
4. `NodeIndex.SubIndex`: with several passes the last ranges may be in no pass (`C31_false`); so `rewritenodes -m` may
   leave refs unresolved (`C47_false`).
5. `WayIndex.SubIndexWithScaledPass`: the last way may be in no pass (`C41_false`), so relindex output depends on the
   number of passes (`C44_false`).
6. `AddString("")` wraps the reserved frequency: index 0 is no longer the empty string (`C20_false…`), dense tags are
   lost (`C21_false…`), and tagfilter loses the tags of nodes with empty values (`C49_false…`).
7. Slices are checked against capacity: an overrunning field reads its neighbour (`C08_…`, `C71_cut_short`); a skipped
   section of length ≥ 2^63 loops forever (`C09_endless_loop`).
8. A cancelled nodeindex/wayindex writes the final header over an index without locations (`C36_false`, `C74_nodeindex`,
   `C74_wayindex`).
9. `Blob.Write` drops an empty raw section, the result panics when read (`C51_empty_payload`); zlib data longer than the
   declared size is cut or panics depending on chunking (C52).
10. `MarkupAsProgress` returns the text unescaped at 100 %, so "100.0%" loses its percent sign (`C67_false`).
11. Zero workers deadlock on every non-empty file (C56).
12. relindex of a file without relations panics (`C44_no_relations`); way ids ≤ 0 are misread; ENCODING.md does not
    mention the way id in each entry, says that latitudes are shifted by one (they are not) and that 0–7 bytes of padding
    are added (1 to `amt` are).
13. A cancelled rewritenodes continues with its later passes on truncated files (`C74_rewritenodes`) and leaves a
    valid-looking truncated file; ways of 16384 bytes or more after rewriting panic (`C46_large_way`); input = output
    truncates the input while it is mapped (`C73_same_file`).
14. `-m 0` divides by zero (`C32_other_targets`); negative ids make entitycount's maxima garbage
    (`C61_false_with_negative`); `dumpnodeindex --start-element` below 0 panics (`C66_negative_start`); an index with no
    elements cannot be dumped.
15. Block-file outputs cut exactly between two blocks read as valid shorter files (C72).
16. `ByteSliceAsInt64Slice` keeps the spare capacity, so an append would overwrite what follows (`C68_words_append`).
17. `rewritenodes -t` with a factor from 0 to 1: a measured lookup never returns; with a factor up to 1.0625 a slow lookup
    indexes out of the counters and panics (C75).
18. A compressed block that inflates to more than it declares is accepted or panics depending on how many bytes zlib
    delivers at once (`C77_longer_differs`); a block whose last packed list claims more bytes than the block has takes them
    from the bytes an earlier block left in the pooled buffer, so the output differs from run to run
    (`C77_pool_differs`). `relindex` with 0 passes leaves a pass file and no output.
19. `dumpwayindex` accepts negative part numbers; `--sub-index-index=-1 --sub-index-count=0` divides by zero
    (`C78_negative_parts`). Numbers of workers and passes are not checked (`C78_counts_unchecked`).
20. The writers of `nodeindex` and `wayindex` display the number of ranges of a block as the block's number
    (`C79_index_writer_number`); `tagfilter` displays the previous block's number while it handles a header that is not
    the first block (`C79_tagfilter_header`); `rewritenodes` can display "way 2/1" while a new block arrives
    (`C79_ways_mixed`).
21. `ReplaceWidgets` posts from a new goroutine each time, so the widgets of an earlier pass of `rewritenodes` can replace
    those of a later one (`C80_stale_layout`), and a quick command's may never be shown (`C80_never_shown`). A negative
    `--refresh` is accepted and makes every run panic (`C80_negative_interval`).
22. The reorderer keeps any number of results: with two workers one slow block makes the results of the whole rest of
    the file pile up in memory (`C82_false_unbounded`, `C82_false_any_bound`).
23. The names of the profile files are not checked: `--mem-profile` with the name of the output replaces the output by
    the profile (`C84_mem_is_output`), `--cpu-profile` with the name of the input empties the input (`C84_cpu_is_input`).
24. Nothing marks an unfinished block file: a command started while its input is still being written can take the first
    blocks for the whole file (`C83_unfinished_input`).
25. Hits in the statistics of rewritenodes include ids in the gaps of a range, for which nothing is located: hits are not
    the number of refs replaced (`C85_meaning` and the example beside it).
26. The bar of a progress line vanishes at 100 % (`pre >= len(s)` returns the text without markup: `C86_vanishes`), and the
    overall bar may step back by one column from one pass to the next (`C86_steps_back`, `C86_back_at_most_one`).
27. A packed list in several pieces, which protocol buffers allow, is read wrongly without an error: only the last piece is
    kept (`C87_false_of_split_lists`). Everything else that is unsupported panics (`C87_unsupported`).
28. Data race (C91): `pfs.max` is written without synchronization when the reading begins (process.go:101), and `PassProgress`
    (widget_pass_progress.go:35), which rewritenodes shows from the start, reads it without having seen a state store. The other
    widget reads it only after it has seen a state other than `Initializing` atomically, which orders the two.
29. `decodeZLib` stops reading as soon as it has the declared number of bytes (blob.go:85-87), whatever error
    comes with the last of them, so the checksum is never looked at: a corrupted stream of the right length is accepted, as are
    streams cut inside their checksum. With a declared size of 0 the stream is not looked at at all.

30. `dumpnodeindex` prints coordinates with `%f`, six digits after the point, while locations are stored with seven: different
    locations print the same coordinates (`C95_coordinates_not_injective`). The hexadecimal location on the same line is exact.

31. `MarkupAsProgress` counts bytes, not characters: with a file name that is not ASCII the line and the bar are too short, and
    while the bar ends within a character, that character is shown as garbage (`C99_within`, `C99_width`).

32. No file is synchronised (`fsync`) before its header is written, so after a power failure an incomplete index can be accepted.
    For nodes this is worse than missing data: a range of zeros ends at `0 + 0 - 1`, which is 2^64-1, so it contains every id, and
    lookups answer with the location whose number is the id (`C100_lost_range`, `C100_false`). Lost locations of ways are ways
    found with an empty path (`C100_false_ways`). With one `Sync` before the header it would not happen (`C100_synced`).

33. Neither indexer checks that its input is sorted. From a source whose ids go down (nodes 5, 2; ways 8, 3) the index is written and accepted, but elements in it are not found (`C102_nodes_false`, `C102_ways_false`); what is found is right all the same (`C102_nodes_sound`, `C102_ways_sound`). Repeated ids, as in history files, do no harm beyond an arbitrary version being found.
34. A block file that lost a page in a power failure is noticed only if a block begins in that page: blobs that are stored uncompressed (all that osmindex writes) have no checksum. `C105_false`: whatever the page size, a way read from the output of decompress has another name than it should.
35. `OsRemoveTry` ignores every error, not only that the file is missing: if files between passes cannot be removed (for instance the directory has become read-only, or another user owns a file in a sticky directory) rewritenodes and relindex end normally and leave files of the size of the input behind (`C106_left_over`).
36. If tagfilter drops every block (possible only for a file without a header block) it writes an empty file, on which every other command panics, since an empty file cannot be mapped; rewriting first and filtering afterwards ends normally (`C107_nothing_left`). The two orders give different bytes for the same content: the size prefixes are padded differently (`C107_false_of_bytes`).

## 7. Checking

`cd lean && lake build` builds everything. `vcheck` rebuilds the last commit from a clean copy and replays every module in
the kernel. To see the axioms of a theorem: `import Verif` and `#print axioms Osm.Props.C55_in_order`.

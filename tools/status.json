{
 "C08": {
  "status": "partial",
  "note": "False in general: slicing is bounded by capacity, so a sub-message can read its parent's bytes (C08_overrun_reads_foreign_bytes is the witness). The exact outcome for every slice, position and length is C08_exact; an overrun is rejected iff it also overruns the array (C08_overrun_iff), so always in a slice without spare capacity."
 },
 "C09": {
  "status": "partial",
  "note": "False in general: an info/changeset section of length >= 2^63 is skipped backwards (C09_endless_loop). Proved fully for message types without skipped sections and all packed decoders; for the rest under SkipsForward."
 },
 "C18": {
  "status": "proved",
  "note": "Hypothesis: fewer than 2^32 AddString calls (the index is a uint32)."
 },
 "C20": {
  "status": "partial",
  "note": "False when the empty string is itself added (C20_false_when_empty_string_added): its reserved frequency MaxUint32 wraps to 0. C20_exact is the exact condition for all inputs: never added, or added more often than every other string."
 },
 "C21": {
  "status": "partial",
  "note": "False in general (C21_false_with_empty_value, a consequence of C20). C21_exact is the exact condition for all inputs: no tag of a node has as its key the string at index 0 of the table; in particular blocks without empty strings, or whose nodes are untagged, in memory and through Write/Read."
 },
 "C22": {
  "status": "proved",
  "note": "Hypothesis: fewer than 2^32 strings per block; in memory and through Write/Read."
 },
 "C27": {
  "status": "partial",
  "note": "Proved for every count except exactly 2^24; at 2^24 the code accepts and corrupts (C27_false_at_2_24, and for every even offset)."
 },
 "C31": {
  "status": "partial",
  "note": "False in general (C31_false). Proved: the exact condition under which it holds (iff), that one pass always works, and a simple sufficient condition."
 },
 "C32": {
  "status": "proved",
  "note": "Target at least 1 MiB and below 2^64 bytes; 0 panics (C32_other_targets)."
 },
 "C33": {
  "status": "partial",
  "note": "False of the code for inputs with node id 0 or 1 (C33_false, C33_false_later_blocks). For all ids >= 0: C33_exact is the exact content of the index and C33_exact_lookup what each lookup answers; C33_iff: the index is right if and only if no node has id 0 or 1. C33_index_partial, C33_lookup_partial: the right answers from 2 on (blocks below 2^23 nodes, at most 2^39 nodes)."
 },
 "C36": {
  "status": "partial",
  "note": "False of the code: C36_false shows a cancelled run whose output is accepted with all elements and no locations. Proved: the file is the full one with locations cut short, so lookups panic or give the full index's answer."
 },
 "C37": {
  "status": "partial",
  "note": "False at the limits: way id 2^31 and offset 2^33 are accepted and corrupted (C37_false); C37_corrupts_only_at_limits shows these are the only corruptions. Proved below the limits, and that larger values panic."
 },
 "C41": {
  "status": "partial",
  "note": "False in general (C41_false: five ways, 16 passes). Proved: the exact condition (iff), a simple sufficient one, and that indexer output meets it."
 },
 "C44": {
  "status": "partial",
  "note": "The written index is computed exactly (C44_exact) and shown to contain every location when every way is found in some pass (C44_content_partial); the full claim is false for pass counts whose sub-indexes do not cover the way index (C44_false: 1 pass and 16 passes differ), input without relations panics (C44_no_relations), and way ids must be positive."
 },
 "C45": {
  "status": "proved",
  "note": "For pass counts n >= 1; C45_any_run also covers runs that panic or are given no relations."
 },
 "C51": {
  "status": "partial",
  "note": "Proved for every file whose payloads are non-empty, every worker count, interleaving and zlib chunking. False for an empty payload (C51_empty_payload): Blob.Write drops an empty raw section, so the block cannot be read back. C51_exact: in a file with any mix, exactly the non-empty payloads are preserved."
 },
 "C46": {
  "status": "proved",
  "note": "For files whose blocks read robustly (FileHas), any schedule, workers and zlib chunking. C46_whole: decoded in full, the output is the input with only the refs replaced, for sources whose sections are complete in themselves. Success needs every way to fit 16384 bytes after replacement (C46_large_way shows a 2000-ref way that does not and panics)."
 },
 "C47": {
  "status": "partial",
  "note": "False in general (C47_false: a 1 MiB target means two passes, and a ref is left unresolved). Proved: the exact result for every pass count, equality with one pass whenever the passes cover the index (C31 gives the iff)."
 },
 "C48": {
  "status": "proved",
  "note": "For uncancelled runs; input, index, output and pass files assumed to be different files (C48_cleaned_up); C48_any_run for every completing run."
 },
 "C49": {
  "status": "partial",
  "note": "Proved for files of any size, any schedule: exactly the blocks with an entity left, the wanted nodes with their wanted tags, all ways and relations. For blocks that contain an empty string as tag or role the code can lose tags (C49_false_with_empty_value); the nodes are right iff no key is the string at index 0 of the written table (in Shows)."
 },
 "C50": {
  "status": "proved",
  "note": "Counters, one message per block, fillers accounted for, pending-nodes panic unreachable, runs complete when the entities left have room."
 },
 "C60": {
  "status": "proved",
  "note": "LTS of atomic load / compare-and-swap / add steps of any number of goroutines; the final value, monotonicity, completion when running alone (3 steps), termination of every execution, and sums."
 },
 "C61": {
  "status": "partial",
  "note": "exact result for every file: C61_exact (totals mod 2^64, maxima as unsigned maxima); the maxima are right iff no id is negative: C61_maxima_iff, so the plain claim is false of the code in general; proved under non-negative ids"
 },
 "C62": {
  "status": "proved",
  "note": "LTS of any number of goroutines using the pool (atomic size hint, arbitrary pool choices and evictions): exact length, exclusivity, isolation of contents, input memory never pooled, panics only for sizes of 2^63 or more. The protocol of the users (one Put per buffer, no use afterwards) is read off the workers and built into the model."
 },
 "C63": {
  "status": "proved",
  "note": "LTS of workers (list change and version increment are separate steps) and the refreshing goroutine; worker states are distinct pointers tracked once. tcell's BoxLayout is modelled as a list."
 },
 "C64": {
  "status": "proved",
  "note": "FWrite for every schedule of short writes, errors and zero writes; FWriteSlice*; FCopy; crash prefixes"
 },
 "C68": {
  "status": "proved",
  "note": "at the level of slice headers and memory (little-endian); agrees with the value-level functions used elsewhere"
 },
 "C65": {
  "status": "proved",
  "note": "Printed entities are exactly the requested ones, per block in file order, for every worker interleaving; text formatting of an entity not modelled."
 },
 "C70": {
  "status": "proved",
  "note": "Extraction of nodes, ways and relations from sound blocks against a specification written from the format."
 },
 "C66": {
  "status": "proved",
  "note": "Whole output of both dump programs specified for well-formed indexes (text formatting of lines not modelled)."
 },
 "C67": {
  "status": "partial",
  "note": "False when the boundary is at or past the end (100%), negative, or the width is 0, and the text has a percent sign (C67_exact_iff, C67_false). Float computation of the boundary abstracted to any value; one byte per character (any characters: C99)."
 },
 "C71": {
  "status": "proved",
  "note": "Full blocks, the single messages and stored blobs; C71_cut_short shows why the bytes must parse on their own."
 },
 "C69": {
  "status": "partial",
  "note": "C69_end_to_end_partial: all four commands on any sorted source, one pass over the node index, up to 2^shift passes over the way index, all schedules (C69_any_schedule). C69_any_memory_partial: any memory target whose passes cover the index, relindex on the source or on the rewritten file. Missing only because false of the code: memory targets / pass counts whose passes do not cover the index (C31, C41)."
 },
 "C72": {
  "status": "proved",
  "note": "Concurrent interruption for rewrite passes, tagfilter, decompress, nodeindex, wayindex (any schedule, any worker count, torn writes); relindex and multi-pass rewritenodes as whole programs. A block file cut exactly between blocks reads as a valid shorter file: stated as such."
 },
 "C73": {
  "status": "proved",
  "note": "All six writing commands, all crash points, cancelled or not; C73_same_file shows what happens when input = output."
 },
 "C74": {
  "status": "proved",
  "note": "Cancellation modelled as a cut of the blocks handed over (C74_any_schedule links it to the pipeline); tagfilter assumes the run ends normally (C49's conditions); relindex and the passes under C44/C47's conditions."
 },
 "C75": {
  "status": "proved",
  "note": "float64 as rationals with any rounding that is monotone, idempotent and accurate to half an ulp; loop count by fuel (hang = for every fuel). C75_endless / C75_out_of_range show the factors for which lookups do not return."
 },
 "C76": {
  "status": "proved",
  "note": "Joint transition system of pipeline, pool and memory refined into the pipeline with atomic workers; deadlock freedom and termination; instances for all commands."
 },
 "C77": {
  "status": "proved",
  "note": "Provisos (block does not inflate to more than declared / does not read on behind its end) are necessary: C77_longer_differs, C77_pool_differs. C77_rewritenodes is for inputs with readable contents and a well-formed index."
 },
 "C78": {
  "status": "proved",
  "note": "The go-flags parser is an arbitrary value. C78_negative_parts and C78_counts_unchecked are findings."
 },
 "C79": {
  "status": "partial",
  "note": "Proved for all workers and for the writers of decompress, rewritenodes, relindex, tagfilter, at any redraw timing. False for the block number of the index writers (they show the number of ranges, C79_index_writer_number) and of tagfilter headers behind the first block (C79_tagfilter_header); the way counter can mix two blocks (C79_ways_mixed)."
 },
 "C80": {
  "status": "proved",
  "note": "tcell (event queue, PostFunc, Quit, Wait, BoxLayout) is modelled from its documentation and source as remembered; drawing is not modelled."
 },
 "C81": {
  "status": "proved",
  "note": "decompress, rewritenodes and tagfilter on their own output; the stated conditions (no empty block, no empty string among tags and roles) are necessary for tagfilter: C81_false_with_empty_value"
 },
 "C82": {
  "status": "partial",
  "note": "Accounting, cause of waiting, back pressure, one worker proved; a bound in general is false (C82_false_unbounded, C82_false_any_bound: one slow block and two workers), so the bound is proved under a bounded delay."
 },
 "C83": {
  "status": "proved",
  "note": "For every command (file lists proved for six commands), every interleaving with other processes; the proviso that no file is shared is shown needed (C83_unfinished_input)."
 },
 "C84": {
  "status": "proved",
  "note": "Profiles' contents arbitrary; the proviso on names is shown needed (C84_mem_is_output, C84_cpu_is_input)."
 },
 "C85": {
  "status": "proved",
  "note": "C85_run + C85_any_schedule: any memory target, schedule and dealing. C85_meaning, C85_sum: what the numbers are."
 },
 "C86": {
  "status": "proved",
  "note": "IEEE rounding of float64 modelled and its properties proved; the English states the exact behaviour including the step back and the vanishing bar."
 },
 "C87": {
  "status": "proved",
  "note": "for the supported part of the format, in which lists are in one piece; false of split lists (C87_false_of_split_lists)"
 },
 "C88": {
  "status": "proved",
  "note": "all writers, and the three programs that write OSM files"
 },
 "C89": {
  "status": "proved",
  "note": "Node and way lookups, any content and hint; reads-only theorems tie the recorded positions to the answers."
 },
 "C90": {
  "status": "proved",
  "note": "Completed runs on any input; the bounds are sharp for nodes (example)."
 },
 "C91": {
  "status": "partial",
  "note": "Race freedom proved for all schedules when PassProgress is not shown; with it (rewritenodes) the only possible race is on pfs.max, and it is shown to exist. One call of ProcessFileAsync; the accesses of commands are over-approximated per phase. The tracker, the state words and the widgets are race free (C91_tracker), in a model of their own. The terminal library's memory is not included."
 },
 "C92": {
  "status": "proved",
  "note": "the relation index as a format; C44_false's index as example"
 },
 "C93": {
  "status": "proved",
  "note": "all commands; the concurrent runs in any schedule"
 },
 "C94": {
  "status": "proved",
  "note": "for every content of the pass file; C94_next for ids other than -2^63, C94_last for relations that announce no negative number of ways"
 },
 "C95": {
  "status": "proved",
  "note": "Stated against a grammar of the reports (Spec/Text), which is proved unambiguous."
 },
 "C96": {
  "status": "proved",
  "note": "C96_run under the conditions of C44_exact; C96_pass for any input of a pass that succeeds."
 },
 "C97": {
  "status": "proved",
  "note": "Stated against a grammar of the lines (Spec/TextFind), proved unambiguous; composed with C65 for whole runs."
 },
 "C98": {
  "status": "proved",
  "note": "All lines of workers, writers and the file; truthfulness composed with C79 where C79 holds in full; the text of tagfilter's worker is modelled and unambiguous (C98_unique), its truthfulness is C79_tagfilter_worker_partial"
 },
 "C99": {
  "status": "proved",
  "note": "Exact condition (iff) for every text, width and end of the bar; tcell's SetMarkup and Go's rune conversion as documented"
 },
 "C100": {
  "status": "partial",
  "note": "False of the code: nothing is synchronised before the header is written (C100_false, C100_false_ways, C100_lost_range). Proved: an accepted index had been complete and its first page is intact (C100_header), nothing but what was written or zeros (C100_bytes), intact ranges give right answers or none (C100_locations_partial), and with a sync the property holds (C100_synced)."
 },
 "C101": {
  "status": "proved",
  "note": "every history of interrupted attempts, all six writing commands, and the four of C69 one after the other"
 },
 "C102": {
  "status": "proved",
  "note": "Soundness for every order; completeness for ids that never go down; completeness fails otherwise (C102_nodes_false, C102_ways_false), as the statement says."
 },
 "C103": {
  "status": "proved",
  "note": "whatever way index file that opens: exactly when relindex completes and what it writes; soundness for unsorted sources, completeness for history files"
 },
 "C104": {
  "status": "proved",
  "note": "C104_sound for any order, C104_history when ids never go down (any memory target whose passes cover the node index), C104_no_target: without a memory target they do."
 },
 "C105": {
  "status": "partial",
  "note": "False of the code: zeros inside a block are not noticed (C105_false, for every page size). Proved: nothing but what was written or zeros, for all four commands that write data (C105_bytes_*), and if no block header is on two pages, what is accepted has the first blocks, of the same kinds and lengths, with bytes spoiled only by zeros (C105_decompress_partial, C105_tagfilter_partial, C105_rewritenodes_partial)."
 },
 "C106": {
  "status": "proved",
  "note": "C106_noticed / C106_full_disk for any program in Code form (every command is one: C83_*, rewritenodesStuck_code, relindexStuck_code). Failing Close/Unmap and errors of writing profiles are not modelled; stuck files between passes in C106_rewritenodes_stuck, C106_relindex_stuck, C106_left_over."
 },
 "C107": {
  "status": "proved",
  "note": "content of the outputs, block by block; for one memory target, or two whose passes cover the index; the bytes differ in general (C107_false_of_bytes)"
 },
 "C108": {
  "status": "proved",
  "note": "all commands; of rewritenodes the content of the outputs, of the others the bytes"
 },
 "C109": {
  "status": "proved",
  "note": "Every crash point of every run; the example shows the bound is attained."
 },
 "C110": {
  "status": "proved",
  "note": "wayindex and relindex on a file and on what tagfilter made of it; C110_header: the filtered file is not empty if there is a header. Complete (not cancelled) runs."
 },
 "C111": {
  "status": "proved",
  "note": "nodeindex and relindex on a file and on what rewritenodes made of it, also cancelled at the same block."
 },
 "C112": {
  "status": "proved",
  "note": "Histories of decompress, tagfilter and rewritenodes; C112_format, C112_relindex, C112_entities, C112_entitycount; C112_wayindex without rewritenodes, C112_nodeindex without tagfilter among the commands."
 }
}
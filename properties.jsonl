{"id": "C01", "title": "Reading a message never panics", "statement": "DltStorageEntry::try_read, try_read_valid_marker and DltEntry::try_read return Some or None on every byte slice; no slice index or arithmetic in them can panic.", "quantifier": "every byte slice of every length", "why_tests_cant": "the input domain is all byte strings; tests sample a handful of buffers", "anchors": ["rapiddlt/src/dlt_v1.rs:try_read", "rapiddlt/src/dlt_v1.rs:DltEntry::try_read", "rapiddlt/src/dlt_v1.rs:DltStorageEntry::try_read"]}
{"id": "C02", "title": "Reading is exactly the inverse of the DLT v1 layout", "statement": "DltStorageEntry::try_read(bytes) = Some((n, e)) if and only if bytes starts with the n-byte DLT v1 serialisation of e (16-byte storage header with little-endian seconds/microseconds, 4-byte standard header with big-endian length, tail of length-4 bytes), the pattern is DLT\\x01, and the length field equals 4 + tail length. Every serialised message reads back as itself.", "quantifier": "every byte slice, every message, every field value", "why_tests_cant": "round trip over all field values and all trailing bytes", "anchors": ["rapiddlt/src/dlt_v1.rs:try_read", "rapiddlt/src/dlt_v1.rs:DltStorageHeader", "rapiddlt/src/dlt_v1.rs:DltStandardHeader"]}
{"id": "C03", "title": "The reported size is the message's size, in bounds, and bytes after it are never looked at", "statement": "If try_read yields (n, e) then n = e.len() = 16 + e.dlt.header.length(), 20 <= n <= 65551, n <= bytes.len(), and reading any slice that agrees on the first n bytes and is at least n long gives the same result.", "quantifier": "every byte slice and every truncation or extension of it", "why_tests_cant": "quantifies over all continuations of the buffer", "anchors": ["rapiddlt/src/dlt_v1.rs:DltStorageEntry::len", "rapiddlt/src/dlt_v1.rs:try_read"]}
{"id": "C04", "title": "max_len bounds the length of every readable value", "statement": "For every value that try_read can return, len() <= max_len() (the documented meaning of max_len).", "quantifier": "every readable DltStorageEntry and DltEntry", "why_tests_cant": "needs the extreme length field; a test set with short messages never sees it", "anchors": ["rapiddlt/src/dlt_v1.rs:max_len", "matchit/src/lib.rs:FromBytesReadableTrait"]}
{"id": "C05", "title": "Header type byte round-trips", "statement": "For every combination of the five flags and every version, the accessors of DltHTyp::new(...) return the flags given and version mod 8; and every header-type byte is DltHTyp::new of its own accessors.", "quantifier": "all 32 flag combinations, all 256 versions, all 256 bytes", "why_tests_cant": "universally quantified over both directions", "anchors": ["rapiddlt/src/dlt_v1.rs:DltHTyp"]}
{"id": "C06", "title": "Message info round-trips", "statement": "MessageType::create_message_type(verbose, typ).info() == (verbose, Some(typ)).", "quantifier": "both verbose values, every message type and type info, every address at which the linker places the constructors", "why_tests_cant": "the value depends on the address of a function item; a test sees one link layout", "anchors": ["rapiddlt/src/dlt_v1.rs:MessageType::create_message_type", "rapiddlt/src/dlt_v1.rs:MessageType::info", "rapiddlt/src/dlt_v1.rs:DltMessageInfoMask"]}
{"id": "C07", "title": "Message info decodes as the DLT v1 standard says", "statement": "MessageType::info() returns verbose = bit 0 and the type given by MSTP = bits 1-3 and MTIN = bits 4-7 of the byte (None for a reserved combination).", "quantifier": "all 256 message info bytes", "why_tests_cant": "the whole table has to agree, not sampled entries", "anchors": ["rapiddlt/src/dlt_v1.rs:MessageType::message_type", "rapiddlt/src/dlt_v1.rs:DltMessageInfoMask"]}
{"id": "C08", "title": "ecu_id() returns the ECU id or None, and does not panic", "statement": "For every message that can be read, ecu_id() returns the big-endian u32 in the first four tail bytes when the ECU flag is set, None otherwise, and never panics.", "quantifier": "every readable message, including ones whose tail is shorter than its flags promise", "why_tests_cant": "needs adversarial tails", "anchors": ["rapiddlt/src/dlt_v1.rs:DltEntry::ecu_id"]}
{"id": "C09", "title": "timestamp() returns the timestamp field or None, and does not panic", "statement": "For every readable message timestamp() is Some(t) exactly when the timestamp flag is set and the tail holds the optional fields up to and including the timestamp, t is the big-endian u32 at offset 4*(ecu)+4*(session); it never panics.", "quantifier": "every readable message", "why_tests_cant": "all flag combinations times all tail lengths", "anchors": ["rapiddlt/src/dlt_v1.rs:DltEntry::timestamp"]}
{"id": "C10", "title": "extended_header() and payload() return the standard's regions or None, and do not panic", "statement": "For every readable message: extended_header() is Some exactly when the flag is set and the ten bytes after the optional fields are present; payload() is the rest of the tail; optional fields, extended header and payload concatenate back to the tail; neither call panics.", "quantifier": "every readable message", "why_tests_cant": "all flag combinations times all tail lengths", "anchors": ["rapiddlt/src/dlt_v1.rs:DltEntry::extended_header", "rapiddlt/src/dlt_v1.rs:DltEntry::payload"]}
{"id": "C11", "title": "dltit terminates without panicking on any file", "statement": "Calling next() on dltit(bytes) until it returns None finishes after at most bytes.len()/20 items, without a panic or an arithmetic overflow.", "quantifier": "every byte slice (shorter than 2^63)", "why_tests_cant": "termination over all inputs", "anchors": ["rapiddlt/src/dlt_v1.rs:dltit", "matchit/src/searchable/readfallbackit.rs:ReadFallbackIterator::next"]}
{"id": "C12", "title": "Every message dltit yields is really in the file at the reported offset", "statement": "Each (offset, message) from dltit_offset is a complete serialised message located at that offset, entirely inside the slice.", "quantifier": "every byte slice and every yielded item", "why_tests_cant": "all inputs", "anchors": ["rapiddlt/src/dlt_v1.rs:dltit_offset", "matchit/src/searchable/readfallbackit.rs:ReadFallbackIterator::next"]}
{"id": "C13", "title": "dltit yields messages in file order without overlap and skips only marker-free bytes", "statement": "Offsets strictly increase, each message starts at or after the end of the previous one, and the bytes skipped between two yielded messages (and before the first) contain no start marker.", "quantifier": "every byte slice", "why_tests_cant": "all inputs", "anchors": ["matchit/src/searchable/readfallbackit.rs:ReadFallbackIterator::next", "matchit/src/searchable/mod.rs:search_marker"]}
{"id": "C14", "title": "dltit returns exactly the messages written, in order", "statement": "If a file is a sequence of messages with marker-free garbage before, between and after them (garbage that does not complete a marker together with its neighbours), dltit_offset yields exactly those messages at exactly their offsets, whatever bytes the payloads contain (including whole embedded messages).", "quantifier": "every list of messages, all payload contents, all such garbage", "why_tests_cant": "unbounded sequences and arbitrary payloads", "anchors": ["rapiddlt/src/dlt_v1.rs:dltit_offset", "matchit/src/searchable/readfallbackit.rs:ReadFallbackIterator::next"]}
{"id": "C15", "title": "dltit stays exhausted", "statement": "Once next() has returned None every further call returns None.", "quantifier": "every byte slice and every number of further calls", "why_tests_cant": "all call histories", "anchors": ["matchit/src/searchable/readfallbackit.rs:ReadFallbackIterator::next"]}
{"id": "C16", "title": "dltit recovers after a corrupted message", "statement": "CHANGELOG: in case of a corrupted message the reader falls back to searching the next marker, so valid messages after a corrupted one are still returned.", "quantifier": "every file containing a corrupted message", "why_tests_cant": "every kind of corruption at every position", "anchors": ["matchit/src/searchable/readfallbackit.rs:ReadFallbackIterator::next", "CHANGELOG.md:ReadIterator"]}
{"id": "C17", "title": "Concatenated files read as the concatenation of their messages", "statement": "If the reader consumes a to its last byte, then reading a ++ b yields the messages of a followed by the messages of b with offsets shifted by a.len().", "quantifier": "every pair of files", "why_tests_cant": "all pairs; test_gen.sh relies on it with cat", "anchors": ["rapiddlt/src/dlt_v1.rs:dltit_offset", "test/test_gen.sh"]}
{"id": "C18", "title": "SearchIterator finds every message not hidden inside an earlier one", "statement": "SearchIterator from an offset yields exactly the leftmost-greedy sequence of valid messages: ordered, disjoint, each really present; every valid message in the remaining bytes is yielded or starts inside a yielded one. It never panics and always terminates.", "quantifier": "every byte slice, every start offset within it", "why_tests_cant": "all inputs", "anchors": ["matchit/src/searchable/searchit.rs:SearchIterator::next", "matchit/src/searchable/searchit.rs:SearchIterator::search"]}
{"id": "C19", "title": "SearchIterator extends dltit", "statement": "The items of dltit_offset(bytes) are a prefix of the items of SearchIterator on the same bytes, and the two agree on every clean file.", "quantifier": "every byte slice", "why_tests_cant": "relates two programs over all inputs", "anchors": ["matchit/src/searchable/searchit.rs:SearchIterator::next", "matchit/src/searchable/readfallbackit.rs:ReadFallbackIterator::next"]}
{"id": "C20", "title": "RevSearchIterator yields every valid marker position backwards", "statement": "Started at offset o within the slice, RevSearchIterator yields exactly the positions p with p+4 <= o at which a marker and a complete message start, in strictly descending order.", "quantifier": "every byte slice, every start offset", "why_tests_cant": "all inputs, including markers embedded in payloads", "anchors": ["matchit/src/searchable/searchit.rs:RevSearchIterator::next", "matchit/src/searchable/searchit.rs:RevSearchIterator::search"]}
{"id": "C21", "title": "RevSearchIterator stays exhausted", "statement": "Once next() has returned None every further call returns None.", "quantifier": "every byte slice and every history of calls", "why_tests_cant": "all call histories; the failing call needs about 2^62 recursive steps", "anchors": ["matchit/src/searchable/searchit.rs:RevSearchIterator::next"]}
{"id": "C22", "title": "ReadIterator reads back-to-back values until the first unreadable one", "statement": "ReadIterator yields values whose offsets are each exactly the previous offset plus the previous size, starting at the given offset; it stops at the end of the slice or at the first position where try_read fails, and then stays exhausted.", "quantifier": "every byte slice and start offset", "why_tests_cant": "all inputs", "anchors": ["matchit/src/readit.rs:ReadIterator::next"]}
{"id": "C23", "title": "Every grep hit is a message containing a match", "statement": "Each (offset, message) yielded by GrepIterator is a complete message at that offset, and some match of the pattern lies after its marker and ends within the message.", "quantifier": "every byte slice, every pattern", "why_tests_cant": "all inputs and all finders", "anchors": ["matchit/src/searchable/grepit.rs:GrepIterator::search"]}
{"id": "C24", "title": "Grep reports a message at most once", "statement": "The offsets yielded by GrepIterator strictly increase, and each match found starts at or after the end of the previously yielded message.", "quantifier": "every byte slice, every pattern that matches no empty string", "why_tests_cant": "all inputs", "anchors": ["matchit/src/searchable/grepit.rs:GrepIterator::next"]}
{"id": "C25", "title": "Grep terminates", "statement": "GrepIterator::next returns on every input, and iterating it ends.", "quantifier": "every byte slice, every pattern", "why_tests_cant": "non-termination needs a pattern with an empty match before the first message", "anchors": ["matchit/src/searchable/grepit.rs:GrepIterator::search"]}
{"id": "C26", "title": "Grep finds every message containing the text", "statement": "On a clean file without embedded markers, GrepIterator for a pattern yields every message whose bytes after the marker contain a match.", "quantifier": "every clean file, every pattern", "why_tests_cant": "all inputs and patterns", "anchors": ["matchit/src/searchable/grepit.rs:GrepIterator::search", "matchit/src/searchable/grepit.rs:GrepIterator::next"]}
{"id": "C27", "title": "RegExMatcherIterator yields each message once and skips no message with a match", "statement": "Comment in next(): go to the end of a DLT entry in order not to emit the same entry twice; iteration then continues with the following message.", "quantifier": "every file, every pattern with a capture group", "why_tests_cant": "depends on offsets far into the file", "anchors": ["matchit/src/searchable/grepit.rs:RegExMatcherIterator::next", "matchit/src/searchable/grepit.rs:RegExMatcherIterator::capture"]}
{"id": "C28", "title": "contained_by terminates, never panics, and only returns real containers", "statement": "For every slice and every payload range contained_by returns; if it returns Some((s, t)) then a message t is readable at s, s < payload.0 and s + t.len() >= payload.1, and s is within max_len of payload.0.", "quantifier": "every byte slice and every payload range", "why_tests_cant": "recursion over nested candidates of unbounded depth", "anchors": ["matchit/src/lib.rs:ContainedBySearch::contained_by"]}
{"id": "C29", "title": "contained_by finds the outermost message and is never fooled by embedded messages", "statement": "For a position p, contained_by(bytes,(p,p+1)) returns exactly the top-level message (in the sense of scanning the file from the start) whose interior contains p, and None if p is on a message boundary or outside every top-level message, whatever messages are embedded in payloads.", "quantifier": "every byte slice, every position, every nesting of embedded messages", "why_tests_cant": "arbitrary nesting depth and contents", "anchors": ["matchit/src/lib.rs:ContainedBySearch::contained_by", "README.md"]}
{"id": "C30", "title": "Partitions are non-empty, contiguous and start at byte 0", "statement": "partition_from(bytes, num) returns non-empty slices that are adjacent and in order, starting at the beginning of bytes: their concatenation is a prefix of bytes. It terminates and panics only for num = 0.", "quantifier": "every byte slice, every num", "why_tests_cant": "all inputs", "anchors": ["matchit/src/lib.rs:partition_from", "rapiddlt/src/dltbuffer.rs:DltBuffer::partition"]}
{"id": "C31", "title": "Partitions lose nothing", "statement": "The concatenation of the slices returned by partition_from(bytes, num) is bytes.", "quantifier": "every byte slice, every num >= 1", "why_tests_cant": "loss depends on message sizes relative to len/num", "anchors": ["matchit/src/lib.rs:partition_from"]}
{"id": "C32", "title": "No message spans two partitions", "statement": "Doc comment of partition_from: no valid T spans over two partitions; every top-level message lies entirely inside one slice or entirely after the slices.", "quantifier": "every file, every num", "why_tests_cant": "needs messages above 65536 bytes or slices shorter than 4 bytes to fail", "anchors": ["matchit/src/lib.rs:partition_from"]}
{"id": "C33", "title": "partition_from creates num partitions", "statement": "Doc comment: creates num partitions.", "quantifier": "every file, every num", "why_tests_cant": "depends on rounding and drift", "anchors": ["matchit/src/lib.rs:partition_from"]}
{"id": "C34", "title": "par_count equals count", "statement": "Counting messages slice by slice in parallel gives the same number as counting sequentially, whatever the number of threads.", "quantifier": "every clean file, every num, every schedule", "why_tests_cant": "all thread counts and schedules", "anchors": ["ripdlt/src/main.rs:multithreaded", "ripdlt/src/main.rs:count", "rapiddlt/src/dltbuffer.rs:DltBuffer::partition"]}
{"id": "C35", "title": "Parallel reductions do not depend on the schedule", "statement": "par_split_timestamp, par_histogram_timestamp and the par_* counters return the same result for every way the thread pool splits and combines the slices.", "quantifier": "every reduction tree over the slices", "why_tests_cant": "all schedules", "anchors": ["ripdlt/src/main.rs:par_continuous_timestamp_histogram", "ripdlt/src/main.rs:par_timestamp_splitit", "ripdlt/src/main.rs:multithreaded"]}
{"id": "C36", "title": "Parallel histograms equal the sequential ones", "statement": "par_histogram_timestamp / par_split_timestamp give the same result as histogram_timestamp / split_timestamp.", "quantifier": "every clean file, every num", "why_tests_cant": "depends on where slices are cut", "anchors": ["ripdlt/src/main.rs:par_continuous_timestamp_histogram", "ripdlt/src/main.rs:par_timestamp_splitit"]}
{"id": "C37", "title": "A generator chain computes the composition of its stages", "statement": "A reducer fed through any chain of filter/map/groupby/merge adapters returns what the reducer alone returns on the composed list of stage outputs, each stage receiving everything the previous one emits (including what it emits on finalize) exactly once and in order; finalize always terminates.", "quantifier": "every chain length, every input sequence, every closure", "why_tests_cant": "unbounded chains and inputs", "anchors": ["matchit/src/generator/adapter.rs:Adapter", "matchit/src/generator/reducer.rs:Reducer", "matchit/src/generator/generator.rs:Generator"]}
{"id": "C38", "title": "filter and map behave as on iterators", "statement": "Generator filter and map produce exactly the elements Iterator::filter and Iterator::map would, in order.", "quantifier": "every predicate/function and every input sequence", "why_tests_cant": "all inputs", "anchors": ["matchit/src/generator/adapter.rs:Filter", "matchit/src/generator/adapter.rs:Map"]}
{"id": "C39", "title": "groupby returns the first and last element of every maximal run", "statement": "For the relation f, groupby emits, in order, (first, last) of each maximal block of consecutive inputs related by f; every input belongs to exactly one block.", "quantifier": "every relation and every input sequence", "why_tests_cant": "all inputs and relations, including irreflexive ones", "anchors": ["matchit/src/generator/groupby.rs:GroupBy"]}
{"id": "C40", "title": "merge neither loses nor invents covered time", "statement": "For overlap-merging of intervals, the union of the merged intervals is exactly the union of the input intervals, outputs are well-formed, and there are at most as many outputs as inputs, emitted in key order.", "quantifier": "every sequence of intervals", "why_tests_cant": "all input orders", "anchors": ["matchit/src/generator/groupby.rs:Merge", "ripdlt/src/main.rs:merge_overlapping_timestamps"]}
{"id": "C41", "title": "merge leaves no two mergeable values", "statement": "After merge, no two emitted values can be merged further.", "quantifier": "every sequence of intervals", "why_tests_cant": "depends on arrival order", "anchors": ["matchit/src/generator/groupby.rs:Merge"]}
{"id": "C42", "title": "split reduces every key's inputs separately", "statement": "split returns a map with exactly the keys that occur; the value of a key is the reducer's result on the subsequence of inputs with that key, in input order.", "quantifier": "every key function, reducer and input sequence", "why_tests_cant": "all inputs", "anchors": ["matchit/src/generator/reducer.rs:Split", "matchit/src/fromgenerator.rs:FromAdaptFnCall::split"]}
{"id": "C43", "title": "fork, fold, count, sum and collect compute what they say", "statement": "fork returns both reducers' results on the same inputs; fold is the left fold; count the number, sum the sum, collect the list of inputs.", "quantifier": "every reducer pair and input sequence", "why_tests_cant": "all inputs", "anchors": ["matchit/src/generator/reducer.rs:Fork", "matchit/src/generator/reducer.rs:Fold", "matchit/src/generator/adapter.rs:Adapter::count", "matchit/src/generator/generator.rs:Generator::sum"]}
{"id": "C44", "title": "Pull-based groupby equals push-based groupby", "statement": "Iterator::groupby (FromAdaptFnCall) yields the same sequence as the generator, then None, and stays exhausted, for every underlying iterator that stays exhausted.", "quantifier": "every relation, every underlying sequence", "why_tests_cant": "two programs over all inputs; depends on the exhaustion behaviour of the underlying iterator", "anchors": ["matchit/src/fromgenerator.rs:FromAdaptFn::next", "matchit/src/fromgenerator.rs:FromAdaptFnCall::groupby"]}
{"id": "C45", "title": "Message size histogram accounts for every message", "statement": "histogram_message_size maps each total length to the number of messages of that length; the counts sum to the message count and sum(len*count) is the number of bytes occupied by messages.", "quantifier": "every file", "why_tests_cant": "all inputs", "anchors": ["ripdlt/src/main.rs:histogram_message"]}
{"id": "C46", "title": "Timestamp histograms never underflow and account for every run", "statement": "histogram_timestamp never panics: the last storage-header second of every run is at least the first; its counts sum to the number of maximal runs of non-decreasing seconds.", "quantifier": "every file", "why_tests_cant": "all inputs", "anchors": ["ripdlt/src/main.rs:continuous_timestamp_histogram"]}
{"id": "C47", "title": "split_timestamp never underflows and counts every message per ECU", "statement": "timestamp_splitit never panics; for each ECU id its second component is the number of messages of that ECU, and each reported duration is that of an interval covered by that ECU's messages.", "quantifier": "every file", "why_tests_cant": "all inputs", "anchors": ["ripdlt/src/main.rs:timestamp_splitit", "ripdlt/src/main.rs:merge_overlapping_timestamps"]}
{"id": "C48", "title": "Lifecycle statistics do not panic", "statement": "histogram_lifecycles, split_lifecycles and iter return a result on every file.", "quantifier": "every file", "why_tests_cant": "needs a message whose tail is shorter than its flags promise", "anchors": ["ripdlt/src/main.rs:lifecycle_histogram", "ripdlt/src/main.rs:lifecycle_splitit", "ripdlt/src/main.rs:lifecycle_iter"]}
{"id": "C49", "title": "count_hello_world counts the messages whose payload contains the text, and does not panic", "statement": "count_hello_world returns the number of messages whose payload contains 'Hello World'.", "quantifier": "every file", "why_tests_cant": "needs malformed tails", "anchors": ["ripdlt/src/main.rs:count_hello_world"]}
{"id": "C50", "title": "Message-type histogram and payload histogram account for every message and do not panic", "statement": "histogram_message_type counts every message with an extended header once; histogram_payload_size counts every message once; neither panics.", "quantifier": "every file", "why_tests_cant": "needs malformed tails", "anchors": ["ripdlt/src/main.rs:mstp_info_histogram", "ripdlt/src/main.rs:histogram_payload"]}
{"id": "C51", "title": "dd_dlt output reads back as the input", "statement": "For 4-byte ids and a payload size n, the output of dd_dlt on an input is read by dltit as exactly floor(len/n) messages; message i carries bytes i*n..(i+1)*n of the input as payload, time stamp 100*i, storage time i/100 s and (i mod 100)*10000 us, counter i mod 256, the given ids and an info-level log message info; at most n-1 trailing input bytes are dropped.", "quantifier": "every input, every payload size the tool accepts, every pair of ids", "why_tests_cant": "unbounded inputs and arbitrary bytes", "anchors": ["dd_dlt/src/main.rs:main"]}
{"id": "C52", "title": "dd_dlt rejects payload sizes it cannot represent", "statement": "For every payload size argument dd_dlt either produces readable messages or reports an error.", "quantifier": "all 65536 payload sizes", "why_tests_cant": "boundary above 65517 and the size 0", "anchors": ["dd_dlt/src/main.rs:main"]}
{"id": "C53", "title": "dd_dlt output can be partitioned without loss of framing", "statement": "Every slice boundary that partition_from produces on dd_dlt output is a message boundary, even when the payloads are themselves DLT files.", "quantifier": "every input (including nested dd_dlt output), every num", "why_tests_cant": "arbitrary nesting", "anchors": ["dd_dlt/src/main.rs:main", "matchit/src/lib.rs:partition_from", "test/test_gen.sh"]}
{"id": "C54", "title": "read_file returns the whole file or an error", "statement": "DltBuffer::read_file returns Ok only with the complete file contents.", "quantifier": "every file and every read error at every position", "why_tests_cant": "needs I/O faults", "anchors": ["rapiddlt/src/dltbuffer.rs:DltBuffer::read_file"]}
{"id": "C55", "title": "Both buffer kinds present the same bytes", "statement": "len(), as_slice() and partition() of a memory-mapped and of a read buffer with the same contents agree, and len() is the length of as_slice().", "quantifier": "every content", "why_tests_cant": "all contents", "anchors": ["rapiddlt/src/dltbuffer.rs:DltBuffer"]}
{"id": "C56", "title": "The split commands print every ECU id", "statement": "split_timestamp and split_lifecycles print one line per ECU id that occurs, whatever the bytes of the id, and never panic while printing.", "quantifier": "every file", "why_tests_cant": "ids are arbitrary byte quadruples; needs ids that are not UTF-8", "anchors": ["ripdlt/src/main.rs:main", "ripdlt/src/main.rs:timestamp_splitit", "ripdlt/src/main.rs:lifecycle_splitit"]}
{"id": "C57", "title": "The itertools lifecycle command counts the long steps and does not panic", "statement": "lifecycle_itertools returns the number of neighbouring pairs of time-stamped messages that are at least half an hour apart in non-decreasing time, and never panics.", "quantifier": "every file", "why_tests_cant": "unbounded sequences, truncated messages", "anchors": ["ripdlt/src/main.rs:lifecycle_itertools"]}
{"id": "C58", "title": "The multithreaded text count equals the sequential one", "statement": "par_count_hello_world prints the number count_hello_world prints (and panics exactly if it does), whatever the number of threads and however the work is scheduled.", "quantifier": "every file, every thread count, every reduction schedule", "why_tests_cant": "scheduling and slice boundaries vary from run to run", "anchors": ["ripdlt/src/main.rs:multithreaded", "ripdlt/src/main.rs:count_hello_world", "matchit/src/lib.rs:partition_from"]}
{"id": "C59", "title": "Headers written as bytes read back", "statement": "A standard, extended or storage header can be read from the front of a slice exactly if the slice starts with the bytes as_bytes gives for that header; the bytes of a stored message are the bytes of its headers followed by the rest.", "quantifier": "every header value and every slice", "why_tests_cant": "all field values of three layouts, in both byte orders", "anchors": ["rapiddlt/src/dlt_v1.rs:DltStandardHeader", "rapiddlt/src/dlt_v1.rs:DltExtendedHeader", "rapiddlt/src/dlt_v1.rs:DltStorageHeader"]}
{"id": "C60", "title": "A file can be mapped exactly if it opens, maps and is not empty", "statement": "mmap_file returns a buffer exactly if the file can be opened and mapped and is not empty, and the buffer holds exactly the contents; on an empty file mmap_file fails while read_file returns an empty buffer.", "quantifier": "every file and every answer of the operating system", "why_tests_cant": "all contents and failure combinations", "anchors": ["rapiddlt/src/dltbuffer.rs:mmap_file", "rapiddlt/src/dltbuffer.rs:read_file"]}
{"id": "C61", "title": "count_hello_world_grepit ends and counts only messages that match", "statement": "count_hello_world_grepit ends on every file without a panic; the number it prints is the number of some messages of the file, each counted once, each of which contains a match of H.* World in its own bytes.", "quantifier": "every file, truncated and corrupt ones included", "why_tests_cant": "arbitrary bytes around and inside matches, matches reaching across message boundaries", "anchors": ["ripdlt/src/main.rs:count_hello_world_grepit", "matchit/src/searchable/grepit.rs"]}
{"id": "C62", "title": "count_hello_world_grepit counts every message that says H.* World", "statement": "On a file that is a sequence of messages, the number printed is the number of messages whose bytes contain a match of H.* World.", "quantifier": "every sequence of messages", "why_tests_cant": "greedy matches can swallow following messages; all sequences of messages", "anchors": ["ripdlt/src/main.rs:count_hello_world_grepit", "matchit/src/searchable/grepit.rs"]}
{"id": "C63", "title": "histogram_hello_world distributes the grepit matches over offsets", "statement": "histogram_hello_world never panics; its buckets are the counts per 100 million bytes of the offsets of the messages count_hello_world_grepit counts, their sum is that count, and each line shows the bounds of its bucket in millions.", "quantifier": "every file", "why_tests_cant": "offsets and counts are unbounded", "anchors": ["ripdlt/src/main.rs:histogram_hello_world"]}
{"id": "C64", "title": "The command line runs exactly the documented commands", "statement": "With fewer than three arguments ripdlt prints its usage; with a wrong access method, an unknown command name, a file that cannot be opened (or, for mmap, is empty or cannot be mapped) it panics; otherwise it runs the named command on the contents of the file. Further arguments are ignored.", "quantifier": "every argument list, every file", "why_tests_cant": "all strings", "anchors": ["ripdlt/src/main.rs:main"]}
{"id": "C65", "title": "mmap and read give the same output", "statement": "For a non-empty file that can be opened and mapped and is read without an I/O error, ripdlt ends the same way with mmap and with read, for every command.", "quantifier": "every file, every way the reads are split up or interrupted, every command", "why_tests_cant": "all read schedules and files", "anchors": ["ripdlt/src/main.rs:main", "rapiddlt/src/dltbuffer.rs"]}
{"id": "C66", "title": "Every run ends with one outcome", "statement": "ripdlt ends (with usage, panic or a report) on every file, for every command line, thread count and schedule, and the outcome is determined by the arguments, the file and the number of threads.", "quantifier": "every argument list, every file, every thread count, every schedule", "why_tests_cant": "termination and determinism over all inputs and schedules", "anchors": ["ripdlt/src/main.rs"]}
{"id": "C67", "title": "Sequential commands panic exactly on incomplete messages or ids that are not text", "statement": "Each sequential command panics exactly if the file holds a message that announces a time stamp, extended header or payload that the command needs and that does not fit into it, or (split commands) an ECU id that is not UTF-8; no sequential command panics on a file whose messages are complete and whose ids are UTF-8.", "quantifier": "every file, every sequential command", "why_tests_cant": "all truncations of all messages at all positions", "anchors": ["ripdlt/src/main.rs", "rapiddlt/src/dlt_v1.rs:dltit"]}
{"id": "C68", "title": "Sequential commands print the right report", "statement": "A sequential command that does not panic prints exactly one report, and its lines are the counts, histograms and sums the command is named after, computed over the messages of the file.", "quantifier": "every file, every sequential command", "why_tests_cant": "all files", "anchors": ["ripdlt/src/main.rs"]}
{"id": "C69", "title": "Multithreaded commands are the sums over the slices", "statement": "A multithreaded command panics exactly if its sequential counterpart panics on the messages of some slice; a multithreaded counter otherwise prints the sum of what the sequential command prints on the slices.", "quantifier": "every file, every thread count, every schedule", "why_tests_cant": "scheduling, slice boundaries", "anchors": ["ripdlt/src/main.rs:multithreaded", "ripdlt/src/main.rs:par_timestamp_splitit", "ripdlt/src/main.rs:par_continuous_timestamp_histogram"]}
{"id": "C70", "title": "Partition slices are balanced", "statement": "If no message is longer than len/num bytes, partitioning a file into num parts gives at least num slices: every slice but the last has more than len/num - (longest message) and at most len/num bytes, the last has at most a quarter more, and the tail that is in no slice is either empty or has between a quarter of len/num and len/num bytes.", "quantifier": "every file and every num >= 1 such that no message, wherever in the file it starts, is longer than len/num bytes", "why_tests_cant": "all message layouts and all slice counts", "anchors": ["matchit/src/lib.rs:partition_from"]}
{"id": "C71", "title": "Partition cuts exactly at message starts", "statement": "The slices are exactly those obtained by aiming every len/num bytes from the previous cut and moving back to the start of the message the aim falls into, giving up when the aim is behind the end or the cut does not move forward, and taking the whole rest if less than a quarter of a slice would be left.", "quantifier": "every file whose top-level messages have at most 65536 bytes and are not straddled, every num >= 1", "why_tests_cant": "all message layouts and all slice counts", "anchors": ["matchit/src/lib.rs:partition_from"]}
{"id": "C72", "title": "Multithreaded commands see a prefix of the messages", "statement": "The messages the slices hold are, in order, the first messages of the file, those starting in front of the byte where the last slice ends; hence par_count never exceeds count, and the number of messages it misses is less than len/num/20.", "quantifier": "every clean file whose messages have at most 65536 bytes (and len/num for the bound) and are not straddled, every num >= 1, every schedule", "why_tests_cant": "all files, slice counts and schedules", "anchors": ["ripdlt/src/main.rs:multithreaded", "matchit/src/lib.rs:partition_from"]}
{"id": "C73", "title": "Partitioning takes a bounded number of reads per slice", "statement": "Cutting a file into slices tries to read a message at most a fixed number of times per slice (the number of bytes of the window it looks at), whatever the bytes are.", "quantifier": "every byte sequence, every num >= 1", "why_tests_cant": "a worst-case bound over all byte sequences; the files that break it cannot be run", "anchors": ["matchit/src/lib.rs:partition_from", "matchit/src/lib.rs:contained_by", "matchit/src/lib.rs:try_read"]}
{"id": "C74", "title": "Searching with a pattern takes bounded stack", "statement": "The depth of recursion of the pattern iterator's next() does not depend on the length of the file.", "quantifier": "every byte sequence, pattern and offset", "why_tests_cant": "a bound over all files", "anchors": ["matchit/src/searchable/grepit.rs:GrepIterator", "ripdlt/src/main.rs"]}
{"id": "C75", "title": "Type info codes follow the standard", "statement": "Converting a number to a log level, trace kind, network trace kind or control kind gives the kind with this number in the DLT standard's table and None for every number not in it; casting a kind to u8 gives its number, and converting back gives the kind.", "quantifier": "all 256 numbers, all kinds", "why_tests_cant": "every number and every kind at once", "anchors": ["rapiddlt/src/dlt_v1.rs:DltLogMessageTypeInfo", "rapiddlt/src/dlt_v1.rs:DltTraceMessageTypeInfo", "rapiddlt/src/dlt_v1.rs:DltNetworkMessageTypeInfo", "rapiddlt/src/dlt_v1.rs:DltControlMessageTypeInfo"]}
{"id": "C76", "title": "Marker search finds the first and the last marker", "statement": "search_marker returns the smallest offset at which the marker occurs, search_last_marker the largest; both return None exactly if the marker does not occur.", "quantifier": "every byte slice, every type with a non-empty marker", "why_tests_cant": "all byte slices", "anchors": ["matchit/src/searchable/mod.rs:search_marker", "matchit/src/searchable/mod.rs:search_last_marker"]}
{"id": "C77", "title": "Fold calls its closure once per item, in order", "statement": "fold with a closure that keeps state between calls returns what calling the closure once per item, in order, with the value it returned before gives, and panics exactly if one of these calls does.", "quantifier": "every closure, every state it captures, every input sequence", "why_tests_cant": "all closures and sequences", "anchors": ["matchit/src/generator/reducer.rs:Fold"]}
{"id": "C78", "title": "Collecting costs a linear number of copies", "statement": "Collecting n items clones a number of items linear in n.", "quantifier": "every input sequence", "why_tests_cant": "a bound for all lengths", "anchors": ["matchit/src/generator/reducer.rs:Fold", "matchit/src/generator/adapter.rs:collect"]}
{"id": "C79", "title": "contained_by's answer is determined, on every input", "statement": "Call a message free if no free message that starts at most 65535 bytes before it reaches the end of its marker. For every byte sequence and range, contained_by returns the first free message that starts before the range, at most 65535 bytes before it, and reaches its end; it returns None exactly if there is none, the range is empty, or the range touches the end of the file.", "quantifier": "every byte slice (nested, overlapping, corrupted, straddling messages included), every range", "why_tests_cant": "recursion over nested candidates of unbounded depth", "anchors": ["matchit/src/lib.rs:contained_by"]}
{"id": "C80", "title": "Partitioning is determined, on every input", "statement": "For every byte sequence the slices are exactly those obtained by aiming len/num bytes behind the previous cut, moving back to the start of the first free message (C79) reaching behind the aim, giving up when the aim is behind the end or the cut does not move forward, and taking the whole rest if less than a quarter of a slice would be left.", "quantifier": "every byte slice, every num >= 1", "why_tests_cant": "all byte sequences", "anchors": ["matchit/src/lib.rs:partition_from", "matchit/src/lib.rs:contained_by"]}
{"id": "C81", "title": "Grep's results are determined, for every pattern and every input", "statement": "Grep looks at the leftmost match from its offset on. The match is attributed to the complete message at the last marker ending at or before the match's start. If the match ends within that message, the message is yielded and grep goes on at its end; otherwise (no such message, or the match ends behind it) grep goes on at the match's end. It ends when no match is left or the offset is at the end of the file. A call never panics, and never returns exactly if it gets this way to an offset before the end where the pattern matches the empty string outside a message.", "quantifier": "every pattern (empty matches included), every byte slice, every start offset, every number of results", "why_tests_cant": "all patterns and all byte sequences; non-termination cannot be observed by a test", "anchors": ["matchit/src/searchable/grepit.rs:GrepIterator"]}
{"id": "C82", "title": "The capture iterator's results are determined, for every pattern and every input", "statement": "The capture iterator finds the same messages as grep does from the same offset; it yields the message's offset and the range of capture group 1, ends at the first such match without a group 1, and after a hit at offset i with group a..b goes on at i + b. It never panics, and never returns exactly if grep does not from the same offset.", "quantifier": "every pattern, every byte slice, every start offset, every number of results", "why_tests_cant": "all patterns and all byte sequences; non-termination cannot be observed by a test", "anchors": ["matchit/src/searchable/grepit.rs:RegExMatcherIterator"]}
{"id": "C83", "title": "Every pipeline and reducer built with the generator API computes its list semantics", "statement": "A chain of filter, map, groupby and merge stages emits exactly what each stage, applied to the whole list of values the stage before emits, makes of it; a reducer built from fold (with stateful closures), fork and split, each behind such chains and nested in any way, always returns, and its result is the one given by the list semantics: fold is the left fold, fork is the pair of both results, split maps the keys that occur, in order, to the results of their reducers on the inputs with that key. It panics exactly if one of the closures panics on a value it is called with in that semantics. This covers relations that do not relate a value to itself and merge functions of any kind.", "quantifier": "every chain, every nesting of fold, fork, split and chains, every closure (panicking or not), every input list", "why_tests_cant": "ranges over all programs a user can build and all inputs", "anchors": ["matchit/src/generator/generator.rs:Generator", "matchit/src/generator/adapter.rs:Adapter", "matchit/src/generator/reducer.rs:Reducer", "matchit/src/generator/groupby.rs:GroupBy", "matchit/src/generator/groupby.rs:Merge"]}
{"id": "C84", "title": "dd_dlt's output is determined byte for byte, lost payload bytes included", "statement": "For four-byte ids and a payload size from 1 to 65517 (65535 in a build without overflow checks) dd_dlt ends normally and writes, for every complete payload of the input in order, 34 header bytes given by the message number and the arguments, followed by the payload if it has no newline, else by everything up to its last newline and at most 1024 bytes behind it (with later versions of the standard library: all bytes behind it if they are fewer than 1024, else none). The output reads back as one message per payload exactly if no payload has more than 1024 (1023) bytes behind its last newline.", "quantifier": "every input, every pair of four-byte ids, every payload size, both build modes and standard library versions", "why_tests_cant": "ranges over all inputs; the loss depends on where newlines are in binary data", "anchors": ["dd_dlt/src/main.rs:main"]}
{"id": "C85", "title": "The reading iterators work for every message type that keeps the trait's contract", "statement": "Take any type that implements SearchableMarkerTrait such that reading never panics, try_read is try_read_valid_marker behind a marker check, the size reported is len(), larger than the marker and inside the slice, bytes behind the value do not matter, and the marker does not overlap itself. Then ReadFallbackIterator yields exactly the values found by going from marker to marker until the first one that starts nothing readable; SearchIterator yields exactly the leftmost-greedy sequence of readable values; RevSearchIterator yields exactly the readable values whose marker ends before the start, in descending order. All of them end and never panic.", "quantifier": "every such type, every byte sequence, every starting offset inside it", "why_tests_cant": "ranges over all implementations of a trait and all inputs; the repository tests two types on a few literals", "anchors": ["matchit/src/searchable/readfallbackit.rs:ReadFallbackIterator", "matchit/src/searchable/searchit.rs:SearchIterator", "matchit/src/searchable/searchit.rs:RevSearchIterator", "matchit/src/searchable/mod.rs:SearchableMarkerTrait"]}
{"id": "C86", "title": "contained_by and partition_from, exactly, for every message type", "statement": "For every type keeping the contract of C85 and every byte sequence, contained_by returns the first value that is itself not contained, starts in the max_len() bytes before the range and reaches its end (nothing iff there is none, the range is empty or touches the end of the file), and partition_from cuts at every len/num bytes, moved back to the start of that value; so no cut goes through an uncontained value of at most max_len() bytes.", "quantifier": "every lawful type, every byte sequence, range and number of slices", "why_tests_cant": "ranges over all types and inputs; the recursion looks back through overlapping candidates", "anchors": ["matchit/src/lib.rs:contained_by", "matchit/src/lib.rs:partition_from"]}
{"id": "C87", "title": "The grep iterators, exactly, for every message type and pattern", "statement": "For every type keeping the contract of C85, every pattern and every byte sequence, GrepIterator and RegexCaptureIterator yield exactly what the leftmost-match search attributes to values (the value at the last marker before the match, if the match ends inside it), never panic, and fail to return exactly if, skipping matches, they get to an offset before the end where the pattern matches the empty string outside a value.", "quantifier": "every lawful type, regular expression, byte sequence and starting offset", "why_tests_cant": "ranges over all types, patterns and inputs, including divergence", "anchors": ["matchit/src/searchable/grepit.rs:GrepIterator", "matchit/src/searchable/grepit.rs:RegExMatcherIterator"]}
{"id": "C88", "title": "The text ripdlt prints is the rendering of its report", "statement": "With fewer than three arguments ripdlt prints its two lines of usage and ends. Otherwise it prints its arguments; with a wrong access method or command, or a file it cannot open or map, it panics there. A command (other than par_iter) that ends has printed exactly its title (and, if multithreaded, the number of threads and slices) and one line per entry of its report, each rendered as documented in Spec/Text; it prints the same bytes under every schedule. A command that panics has printed its title only, except that the split commands print the ECUs in order up to the first whose id is not text.", "quantifier": "every argument list, file, command, number of threads and schedule", "why_tests_cant": "ranges over all files and schedules; the partial output of a panicking run depends on where the panic is raised", "anchors": ["ripdlt/src/main.rs:main", "ripdlt/src/main.rs:multithreaded"]}
{"id": "C89", "title": "The printed text identifies the report", "statement": "If two runs of the same command, on any files and with any numbers of threads, end and print the same bytes, then they report the same numbers: the format is unambiguous, even if ECU ids contain line breaks or text that looks like another line.", "quantifier": "every command but par_iter, all pairs of files and numbers of threads", "why_tests_cant": "injectivity over all reports", "anchors": ["ripdlt/src/main.rs:main"]}
{"id": "C90", "title": "par_iter prints the line of iter for each slice, in any order", "statement": "If iter panics on no slice, par_iter ends and its output is the number of threads and slices followed by the line iter prints on each slice, in some order; every order is possible and nothing else is. If iter panics on a slice, par_iter panics and has printed the lines of some other slices. The sum is not printed, and a lifecycle cut between two slices may appear in no line.", "quantifier": "every file, number of threads and schedule", "why_tests_cant": "the output depends on the schedule", "anchors": ["ripdlt/src/main.rs:multithreaded", "ripdlt/src/main.rs:lifecycle_iter"]}
{"id": "C91", "title": "A file that breaks off yields its complete messages", "statement": "If a file is cut after any number of bytes, the sequential reader yields exactly the messages of the whole file that end before the cut, at the same offsets; if the file grows, what was read stays and every new message ends behind the old end; count therefore never falls. Reverse search behaves the same way. The search iterator yields the complete messages too, and behind them possibly messages embedded in the first incomplete one, which does happen.", "quantifier": "every file, every cut position and every continuation", "why_tests_cant": "every crash point of the logger in every file", "anchors": ["rapiddlt/src/dlt_v1.rs:dltit_offset", "matchit/src/searchable/searchit.rs:SearchIterator", "matchit/src/searchable/searchit.rs:RevSearchIterator", "ripdlt/src/main.rs:main"]}
{"id": "C92", "title": "The library looks at inputs only through the caller's closures", "statement": "Take two programs built with the API (filter, map, group_by, merge, fold, count, split, fork) in the same way, with closures that answer alike on related inputs. On two sequences of pairwise related inputs, of the same or of different types, they return the same result or both panic; chains yield pairwise related outputs. Starting with map(g) is the same as running the rest on the mapped inputs.", "quantifier": "every program, relation, closures and input sequences", "why_tests_cant": "parametricity: ranges over all programs and all pairs of inputs", "anchors": ["matchit/src/generator/generator.rs:Generator", "matchit/src/generator/adapter.rs:Adapter", "matchit/src/generator/reducer.rs:Reducer", "matchit/src/generator/groupby.rs:GroupBy", "matchit/src/generator/groupby.rs:Merge"]}
{"id": "C93", "title": "Each sequential command depends on exactly stated parts of the messages", "statement": "count, iter, itertools, the histograms, the splits and count_hello_world report and print the same, or panic alike, on two files whose messages agree pairwise in what the command is about: nothing for count, the length for message sizes, the storage seconds for time stamps, time stamp (and ECU) for lifecycles, and so on. Bytes between and behind messages never matter to them. The raw search does see such bytes.", "quantifier": "every pair of files and every command that works message by message", "why_tests_cant": "a statement about all pairs of files", "anchors": ["ripdlt/src/main.rs:main", "ripdlt/src/main.rs"]}
{"id": "C94", "title": "Payloads are opaque to the sequential reader", "statement": "If any bytes inside payloads of the messages the sequential reader yields are overwritten by anything, even by start markers or whole messages, it yields the same messages at the same offsets with payloads of the same length, and the ten commands that do not search payloads report and print the same. par_count does not have this property: two payload bytes can change its number.", "quantifier": "every file and every change inside payloads", "why_tests_cant": "every content an application may log", "anchors": ["rapiddlt/src/dlt_v1.rs:dltit_offset", "ripdlt/src/main.rs:main"]}
{"id": "C95", "title": "dd_dlt piped into ripdlt gives the statistics of the input", "statement": "For four-byte ids, payload sizes 1..65517 and inputs whose payloads fit the output buffer (C51), ripdlt on dd_dlt's output reports and prints, computed from the input alone: count and message type the number of payloads; message and payload size one line; time stamp and lifecycle histograms one uninterrupted period of (k-1)/100 seconds, also per ECU; iter one lifecycle iff there are more than 180000 messages; itertools none; count_hello_world the payloads containing the text. Nothing panics.", "quantifier": "every input, ids, payload size, command, access method and number of threads", "why_tests_cant": "two programs composed, over all inputs", "anchors": ["dd_dlt/src/main.rs:main", "ripdlt/src/main.rs:main"]}
{"id": "C96", "title": "The iterators look at each byte a bounded number of times", "statement": "Draining dltit over any file searches through at most file length + 8 bytes and parses at most one header per message and one more; the search iterators and the grep iterator are bounded by a constant number of passes as well.", "quantifier": "every file, offset and number of messages", "why_tests_cant": "a cost bound over all files; quadratic behaviour needs large inputs without messages", "anchors": ["matchit/src/searchable/readfallbackit.rs:next", "matchit/src/searchable/searchit.rs:SearchIterator::next", "matchit/src/searchable/searchit.rs:RevSearchIterator::next", "matchit/src/searchable/grepit.rs:search"]}
{"id": "C97", "title": "A call of next needs bounded stack", "statement": "The number of nested calls in one call of next is bounded, whatever the file.", "quantifier": "every file and offset", "why_tests_cant": "a bound over all files; overflow needs large gaps", "anchors": ["matchit/src/searchable/readfallbackit.rs:next", "matchit/src/searchable/searchit.rs:SearchIterator::next", "matchit/src/searchable/searchit.rs:RevSearchIterator::next"]}
{"id": "C98", "title": "A pipeline calls its closures as the handwritten loop would", "statement": "A chain of filters and maps feeding a fold calls its closures in exactly the order in which a loop written by hand would: per input, first filter to last map, then the accumulator, nothing for a dropped input, nothing at finalize; so effects (prints, logs, counters) and the point of a panic are those of the loop. A fork runs its first pipeline before its second for each input. Whatever effects closures have, if their answers do not depend on them the result of any program (with groupby, merge, split, fork) is that of the closures without effects.", "quantifier": "every chain, closure with any effect on any state, input sequence", "why_tests_cant": "ranges over all closures with effects and all chains", "anchors": ["matchit/src/generator/adapter.rs:Adapter", "matchit/src/generator/reducer.rs:Reducer", "matchit/src/generator/reducer.rs:Fork"]}
{"id": "C99", "title": "groupby asks about each pair of neighbours once", "statement": "For a reflexive relation, groupby calls its closure once for every pair of consecutive inputs, in order, and additionally once with an element and itself for every run of one element: n-1 calls plus the number of single-element runs.", "quantifier": "every input sequence and relation reflexive on it", "why_tests_cant": "a closure with effects observes every call; all sequences", "anchors": ["matchit/src/generator/groupby.rs:GroupBy"]}
{"id": "C100", "title": "split asks its factory once for every input, not once per key", "statement": "The factory passed to split is called with the key of every input (or_insert evaluates its argument), and all but the first reducer for a key are discarded; so a factory with effects or cost runs once per input.", "quantifier": "every input sequence, key function and factory whose split returns", "why_tests_cant": "the discarded calls are invisible in the result", "anchors": ["matchit/src/generator/reducer.rs:Split::next"]}
{"id": "C101", "title": "merge compares at most n(n-1)/2 pairs", "statement": "Merging n values calls the closure at most n(n-1)/2 times; values that are apart (none mergeable, different keys) reach the bound exactly.", "quantifier": "every input sequence, key and merge function", "why_tests_cant": "a cost bound over all inputs", "anchors": ["matchit/src/generator/groupby.rs:Merge"]}
{"id": "C102", "title": "Pull-based groupby is lazy", "statement": "Each call of next on Iterator::groupby takes from the underlying iterator exactly the elements of one run and the single element that ends it, which opens the next run; it returns as soon as the run has ended, whether or not the source ever ends. If the source goes on in one run for ever, the call does not return.", "quantifier": "every underlying iterator (also endless ones), every reflexive relation, every call", "why_tests_cant": "endless sources; the number of elements taken is not visible in the result", "anchors": ["matchit/src/fromgenerator.rs:FromAdaptFn::next", "matchit/src/generator/groupby.rs:GroupBy"]}
{"id": "C103", "title": "Grouping ends when its source ends", "statement": "When the underlying iterator has returned None, groupby returns the last group and then None.", "quantifier": "every underlying iterator of the library", "why_tests_cant": "needs an iterator that starts again after None", "anchors": ["matchit/src/fromgenerator.rs:FromAdaptFn::next", "matchit/src/searchable/searchit.rs:RevSearchIterator::next"]}
{"id": "C104", "title": "dd_dlt on a full disk or closed pipe leaves the front of its output", "statement": "If the output has room for only L bytes and refuses everything after them, dd_dlt puts out exactly the first L bytes of what it puts out otherwise, whatever it has buffered when the room runs out, and readers of the incomplete file find exactly the messages that fit. If everything fits, it ends the same way.", "quantifier": "every L, every input, all arguments, both build modes and standard library versions", "why_tests_cant": "the room can run out at every byte, in every state of the buffer", "anchors": ["dd_dlt/src/main.rs:main"]}
{"id": "C105", "title": "dd_dlt reports output that was not taken", "statement": "If dd_dlt could not put out everything it ends with an error, it ends with this error only then, and it stops soon after the output refuses to take more.", "quantifier": "every room L, every input, all arguments, both build modes and standard library versions", "why_tests_cant": "the room can run out at every byte, in every state of the buffer; inputs on which it otherwise runs forever", "anchors": ["dd_dlt/src/main.rs:main"]}
{"id": "C106", "title": "dd_dlt loses nothing on an output that takes writes in pieces", "statement": "If the output takes every byte in the end, possibly only a part of each write, dd_dlt puts out everything; in no case does it change, add or reorder bytes.", "quantifier": "every behaviour of the output (how much of each write it takes or refuses), every input, all arguments, both build modes and standard library versions", "why_tests_cant": "depends on the schedule of short writes", "anchors": ["dd_dlt/src/main.rs:main"]}
{"id": "C107", "title": "ripdlt never ends normally with incomplete output", "statement": "Whatever the output of ripdlt does - takes writes in pieces, is full, is closed by its reader - a run that does not panic because of it has put out its complete text; in any case what comes out is the front of this text. With room for L bytes exactly the first L bytes come out, and the run panics exactly if the text is longer.", "quantifier": "every behaviour of the output, every file, all arguments, every number of threads, every way the standard library cuts the text into pieces", "why_tests_cant": "the output can refuse at every byte, in every state of the buffer", "anchors": ["ripdlt/src/main.rs:main"]}
{"id": "C108", "title": "Iterators can be started anywhere", "statement": "ReadFallbackIterator, SearchIterator and ReadIterator created with an offset inside the slice yield exactly what they yield on the rest of the slice from offset 0, with the offset added. Started at or beyond the end they yield nothing (the first two panic, with overflow checks, exactly for offsets within the last marker.len() of usize). RevSearchIterator started beyond the end behaves as if started at the end. An iterator started behind a message another one yielded goes on with the messages that follow.", "quantifier": "every message type satisfying the stated laws, every slice, every offset", "why_tests_cant": "the offset is an arbitrary usize and the slice arbitrary", "anchors": ["matchit/src/searchable/readfallbackit.rs:ReadFallbackIterator", "matchit/src/searchable/searchit.rs:SearchIterator", "matchit/src/searchable/searchit.rs:RevSearchIterator", "matchit/src/readit.rs:ReadIterator"]}
{"id": "C109", "title": "How the results of the iterators relate", "statement": "dltit yields a front part of what SearchIterator yields, and everything exactly if no message starts at or behind the end of the last message of dltit. SearchIterator yields a part of what RevSearchIterator yields, in opposite order, and everything exactly if no message starts inside another message.", "quantifier": "every slice of at most isize::MAX bytes", "why_tests_cant": "files can have markers in payloads and damaged messages at any place", "anchors": ["matchit/src/searchable/readfallbackit.rs:ReadFallbackIterator", "matchit/src/searchable/searchit.rs:SearchIterator", "matchit/src/searchable/searchit.rs:RevSearchIterator", "matchit/src/readit.rs:ReadIterator", "rapiddlt/src/dlt_v1.rs:dltit"]}
{"id": "C110", "title": "What the iterators need of a message type", "statement": "The iterators and contained_by find every value of every type that implements SearchableMarker honestly.", "quantifier": "every implementation of SearchableMarker, every slice", "why_tests_cant": "quantifies over implementations of a trait", "anchors": ["matchit/src/searchable/readfallbackit.rs:ReadFallbackIterator", "matchit/src/searchable/searchit.rs:SearchIterator", "matchit/src/searchable/searchit.rs:RevSearchIterator", "matchit/src/readit.rs:ReadIterator", "matchit/src/lib.rs:contained_by"]}
{"id": "C111", "title": "The counting commands do not see the order of messages", "statement": "On two files that hold the same messages in any order, count, histogram_message_size, histogram_payload_size, histogram_message_type and count_hello_world report and print the same, or panic alike. histogram_timestamp does not have this property, not even if only messages of different ECUs change places.", "quantifier": "every two files of at most isize::MAX bytes whose sequences of messages are permutations of each other", "why_tests_cant": "permutations of unbounded sequences of messages", "anchors": ["ripdlt/src/main.rs:count", "ripdlt/src/main.rs:count_hello_world", "ripdlt/src/main.rs:histogram_payload", "ripdlt/src/main.rs:histogram_message", "ripdlt/src/main.rs:mstp_info_histogram", "ripdlt/src/main.rs:continuous_timestamp_histogram", "ripdlt/src/main.rs:main"]}
{"id": "C112", "title": "The split commands see the order of messages per ECU only", "statement": "split_timestamp and split_lifecycles report and print the same, or panic alike, on two files in which every ECU has the same sequence of messages, however the sequences of the ECUs are interleaved.", "quantifier": "every two files of at most isize::MAX bytes with the same per-ECU sequences of messages", "why_tests_cant": "interleavings of unbounded sequences", "anchors": ["ripdlt/src/main.rs:timestamp_splitit", "ripdlt/src/main.rs:lifecycle_splitit", "ripdlt/src/main.rs:main", "matchit/src/generator/reducer.rs:Split"]}
{"id": "C113", "title": "The reports of the commands fit together", "statement": "On one file: the histograms of message and payload sizes add up to count and their printed totals are the sums of the lines; payloads and 20 bytes per message take at most the messages, messages at most the file; the message type histogram counts no message twice; split_timestamp adds up to count; there are between 1 and count periods if there is a message; histogram_lifecycles has no more lifecycles than split_lifecycles has messages, and that no more than count; iter counts no more lifecycles than histogram_lifecycles, and at least one if itertools counts one; count_hello_world counts no more than count and no more than count_hello_world_raw; histogram_hello_world adds up to count_hello_world_grepit.", "quantifier": "every file of at most isize::MAX bytes on which the commands named report", "why_tests_cant": "a relation between the outputs of different commands on arbitrary files", "anchors": ["ripdlt/src/main.rs:main", "matchit/src/generator/groupby.rs", "matchit/src/generator/reducer.rs", "rapiddlt/src/dlt_v1.rs:dltit"]}
{"id": "C114", "title": "Two logs, one after the other", "statement": "If a log that is read to its last byte is followed by another one: a command panics exactly if it panics on one of the two (itertools may also panic although it does on neither); the counts, and every line of the histograms of sizes and types and of the messages per ECU, are the sums; there are as many periods, or lifecycles, as in the two together, less one exactly if the second log goes on where the first ends, and otherwise every line is the sum; iter counts the sum, give or take one, and exactly the sum if the time starts over; itertools counts the sum, and one more exactly if the step from one log to the other is a long one; the raw search finds the sum, or one more, and exactly the sum if the second log starts with a message.", "quantifier": "every two files of together at most isize::MAX bytes (for all but the raw search: the first one read to its end)", "why_tests_cant": "a relation between the outputs on three arbitrary files", "anchors": ["ripdlt/src/main.rs:main", "matchit/src/generator/groupby.rs", "matchit/src/generator/reducer.rs", "matchit/src/searchable/readfallbackit.rs:ReadFallbackIterator", "rapiddlt/src/dlt_v1.rs:dltit"]}
{"id": "C115", "title": "How far the multithreaded commands can be off", "statement": "par_count_hello_world_raw finds no more than count_hello_world_raw; it misses what lies behind the slices and at most one occurrence per end of a slice (per cut, if the slices cover the file). On a log (clean file of messages of at most 65536 bytes, no overlapping embedded message): par_count misses exactly the messages that start behind the slices; par_count_hello_world panics only if count_hello_world does, counts no more and misses at most as many as start behind the slices; par_histogram_timestamp shows at most one period more for each cut, and misses at most one for each message behind the slices; iter on the slices, as par_iter runs it, counts at most one lifecycle more or less for each cut, and misses at most one more for each message behind the slices.", "quantifier": "every file (the raw search) or log of at most isize::MAX bytes, every number of threads but 0, every schedule", "why_tests_cant": "the cuts depend on the number of threads and the bytes of arbitrary files; schedules vary", "anchors": ["ripdlt/src/main.rs:main", "ripdlt/src/main.rs:multithreaded", "matchit/src/lib.rs:partition_from"]}
{"id": "C116", "title": "Following a growing log", "statement": "A program that follows a growing log, reading on with dltit (or the sequential reader for any type that keeps the contract of the traits) at the end of the last message it got, each time bytes were appended, gets exactly the messages that reading the final file in one go yields, at the same offsets in the same order. With the searching iterator it can get a message embedded in one that was not complete yet and miss the outer one; but each message of the final file starts in a message it got, or encloses one it got; and what it got are messages of the final file that do not overlap.", "quantifier": "every file of at most isize::MAX bytes, every way to write it in pieces (also empty ones, also cut inside messages, markers and headers)", "why_tests_cant": "all histories of appends", "anchors": ["matchit/src/searchable/readfallbackit.rs:ReadFallbackIterator::next", "matchit/src/searchable/searchit.rs:SearchIterator::next", "rapiddlt/src/dlt_v1.rs:dltit_offset"]}
{"id": "C117", "title": "Messages copied into a new file", "statement": "A program that copies bytes[offset .. offset + len()] of messages it got from an iterator into a new file - any of them, in any order, also repeatedly - gets a file in which dltit (and the search) finds exactly these messages, in this order, back to back to the end of the file. Selecting the messages of a log by a condition gives a file not longer than the log; the commands that report per message print for it what they print for any log with these messages. Copying all messages cleans a log without changing what these commands print, and a second copy is identical to the first.", "quantifier": "every file of at most isize::MAX bytes, every selection of messages from dltit, search, reverse search or grep (any pattern) started anywhere, every per-message command", "why_tests_cant": "all files, all selections", "anchors": ["rapiddlt/src/dlt_v1.rs:dltit_offset", "rapiddlt/src/dlt_v1.rs:DltStorageEntry", "matchit/src/searchable/searchit.rs:SearchIterator", "ripdlt/src/main.rs:main"]}
{"id": "C118", "title": "Searching with a pattern as a user writes it", "statement": "For every pattern made of literals, byte and Unicode classes, assertions, sequences, alternatives, greedy and lazy repetitions and groups: the matcher finds a match at a position if and only if the pattern matches there (without assertions: a text of its language stands there), and group 1 is a match of the pattern in the group, the last one passed. Of several matches at a position it takes the one of the left alternative, of the longer greedy and of the shorter lazy repetition first. If the pattern cannot match the empty text - for patterns without assertions: if the empty text is not in its language -, the search ends on every file from every offset without panic, in ascending order; capturing ends if the group cannot match the empty text either. On a log of messages one behind the other in which the start marker occurs at the starts of the messages only, the search yields exactly the messages that contain a text of the pattern, once each, provided no text contains the byte 1 or ends with the beginning of a marker (D, DL, DLT). A literal pattern is the search for that text, and H.* World is the pattern of the commands.", "quantifier": "every pattern of that syntax, every file of at most isize::MAX bytes, every offset", "why_tests_cant": "quantifies over all patterns and files", "anchors": ["matchit/src/searchable/grepit.rs:GrepIterator", "matchit/src/searchable/grepit.rs:RegExMatcherIterator", "ripdlt/src/main.rs:count_hello_world_grepit"]}
{"id": "C119", "title": "Debug and release builds agree", "statement": "Overflowing arithmetic panics in a debug build and wraps around in a release build (the build README.md recommends). For every file of at most isize::MAX bytes the difference is invisible: the scanning, reading and pattern-searching iterators, contained_by and partition return the same value and move to the same position in both builds (dltit and SearchIterator: from every position that leaves room for a marker below 2^64, a bound that is needed: beyond it a debug build panics, and a release build panics, ends or starts over), and every command of ripdlt, on any number of threads and for every schedule, prints the same bytes and ends the same way. This holds for any arithmetic that is right where nothing overflows.", "quantifier": "every file of at most isize::MAX bytes, every position, pattern, slice count, command line, number of threads and schedule, every arithmetic that is exact where nothing overflows", "why_tests_cant": "tests run one build profile on a few files; an overflow needs sums near 2^64 or time stamps in an unusual order", "anchors": ["README.md", "matchit/src/searchable/readfallbackit.rs:next", "matchit/src/searchable/searchit.rs:next", "matchit/src/searchable/grepit.rs:GrepIterator", "matchit/src/lib.rs:partition_from", "ripdlt/src/main.rs:main"]}
{"id": "C120", "title": "What the generated test files contain", "statement": "The files test/test_gen.sh makes contain what its comments say, for all inputs: outputs of any runs of dd_dlt (four-byte ids, payload sizes 1..65517, payloads that fit the output buffer), appended to one file, are counted by ripdlt as the sum of the runs' complete payloads; if each run wrote at least two messages histogram_lifecycles counts one lifecycle per run, of (k-1)/100 seconds (runs of one message merge into one); with more than 100 messages each histogram_timestamp counts one period per run; with different ECU ids split_timestamp and split_lifecycles print one line per run. dd_dlt on such a file, with a payload size of p whole messages, makes one message per p messages, and each payload is a DLT file that reads as exactly these p messages; in particular the script's ten-lifecycle files, nasty.dlt and nasty_nasty.dlt hold 10 lifecycles, 100000 and 50000 messages. Texts without a start marker in front of, between and behind messages (skipped.dlt) are skipped. par_count on the appended file counts no more and misses fewer than (slice size)/20 messages.", "quantifier": "every list of runs of dd_dlt, with every input, id, payload size and build; every nesting factor; every text and message", "why_tests_cant": "tests run the script once and count; the outputs depend on random inputs, and runs, inputs and payload sizes are unbounded", "anchors": ["test/test_gen.sh", "dd_dlt/src/main.rs:main", "ripdlt/src/main.rs:lifecycle_histogram", "ripdlt/src/main.rs:timestamp_splitit", "ripdlt/src/main.rs:lifecycle_splitit", "ripdlt/src/main.rs:count", "rapiddlt/src/dlt_v1.rs:dltit"]}
{"id": "C121", "title": "Reports are in order", "statement": "Whatever the file, the command, the number of threads and the schedule: the lines of a report of ripdlt are in strictly ascending order and no two lines are about the same thing. Durations, sizes and offsets are ordered by number, ECU ids alphabetically by their bytes, the durations within the line of an ECU by number, message types with non-verbose messages first and then unknown, log, trace, network and control messages, each by kind.", "quantifier": "every file, command, number of threads and schedule", "why_tests_cant": "the order of the lines must not depend on the order of the messages in the file or on the order in which threads finish; both are unbounded", "anchors": ["ripdlt/src/main.rs:main", "ripdlt/src/main.rs:par_timestamp_splitit", "ripdlt/src/main.rs:par_continuous_timestamp_histogram", "rapiddlt/src/dlt_v1.rs:DltMessageType"]}
{"id": "C122", "title": "Arguments and exit codes", "statement": "Both programs accept exactly arguments that are UTF-8: with any other argument, used or not, they panic before they read or print anything (exit code 101); so they do without even a program name. With fewer than three arguments they print how they are used (ripdlt on standard output, dd_dlt on standard error) and end with exit code 0. Otherwise the exit code is 0 or 101, and 101 exactly if the program panics: for a sequential command of ripdlt exactly on the files on which the command panics; ripdlt writes nothing else to standard error. At its end dd_dlt says on standard error how many messages it wrote and their payload size; that number is the number of complete payloads and of messages in its output (modulo 2^32), and the number that ripdlt count then prints.", "quantifier": "every list of arguments (bytes), input, file, build, command and number of threads", "why_tests_cant": "arguments, inputs and files are unbounded; exit codes must be right on every one of them", "anchors": ["dd_dlt/src/main.rs:main", "ripdlt/src/main.rs:main"]}
{"id": "C123", "title": "Cutting a file into slices takes bounded stack", "statement": "However long the file and whatever its bytes are, contained_by and partition_from need room on the stack for a fixed number of calls of contained_by in progress.", "quantifier": "for all files, all ranges asked about, all numbers of slices", "why_tests_cant": "a test sees one file; that the depth of the recursion does not depend on the file has to hold for every nesting of announced lengths", "anchors": ["matchit/src/lib.rs:contained_by", "matchit/src/lib.rs:partition_from"]}
{"id": "C124", "title": "The searching iterators stay exhausted", "statement": "Once SearchIterator, GrepIterator or RegExMatcherIterator has returned None, every further call of next returns None.", "quantifier": "for all message types, slices, offsets, patterns and numbers of further calls", "why_tests_cant": "a test makes a few further calls; the claim is about any number of them on any slice", "anchors": ["matchit/src/searchable/searchit.rs: SearchIterator::next", "matchit/src/searchable/grepit.rs: GrepIterator::next, RegExMatcherIterator::next"]}
{"id": "C125", "title": "Exit code 0 means that everything came out", "statement": "On an output that may take only part of what is written, or refuse it, a process of ripdlt or dd_dlt ends with exit code 0 only if its whole output was taken; exit code 1 of dd_dlt says that the output refused something, exit code 101 that the program panicked.", "quantifier": "all command lines including arguments that are not UTF-8, all inputs and files, all outputs (for ripdlt: every pattern of short writes and refusals; for dd_dlt: every limited room, and every output that takes writes as a whole), all ways std cuts a line into pieces", "why_tests_cant": "the output can refuse at every byte and every call, in every state of the buffer of standard output", "anchors": ["ripdlt/src/main.rs:main", "dd_dlt/src/main.rs:main"]}
{"id": "C126", "title": "How many equally long messages the multithreaded commands see", "statement": "On a file of k messages of L bytes each, the slices for n threads hold q = k / n messages each, the remainder k mod q goes into the last slice if it is at most k / (4 n) messages and is left out otherwise; if k is a multiple of q but the slices do not come out even, a whole slice is left out. par_count prints exactly k minus the messages left out, which is k as soon as k is at least 4 n squared, and 0 if k is less than n; par_count_hello_world does what count_hello_world does on the file without the messages left out. For the output of dd_dlt with payloads up to 65502 bytes this gives the number printed from the size of the input.", "quantifier": "all files of equally long messages of at most 65536 bytes (any number of them, any content), all numbers of threads, all schedules; all inputs, sizes and builds of dd_dlt", "why_tests_cant": "the number depends on the remainders of the number of messages, of threads and of the message length, with off-by-one cases at the end of the file", "anchors": ["matchit/src/lib.rs:partition_from", "ripdlt/src/main.rs:multithreaded", "dd_dlt/src/main.rs:main"]}
{"id": "C127", "title": "dd_dlt piped into the multithreaded commands", "statement": "Running par_count, par_count_hello_world, par_histogram_timestamp or par_split_timestamp on the output of dd_dlt never panics and prints exactly what follows from the payloads and their numbers alone: the count is that of the messages in the slices, the hello world count that of the payloads among them with that text, the histogram that of the whole seconds each slice spans at 100 messages per second, the split one line for the given ECU id. par_iter prints one line per slice in some order, with a lifecycle exactly if the slice holds more than 180000 messages. The text also begins with the number of threads and slices.", "quantifier": "all inputs, ids of four bytes, payload sizes up to 65502 and builds of dd_dlt for which it does not panic (up to 42949673 messages), all numbers of threads, all schedules of the threads, read and mmap", "why_tests_cant": "the slices depend on the remainders of the number of messages, and the interleaving of the threads on the schedule", "anchors": ["dd_dlt/src/main.rs:main", "matchit/src/lib.rs:partition_from", "ripdlt/src/main.rs:multithreaded"]}
{"id": "C128", "title": "One core, more cores than bytes, and the empty file", "statement": "partition(buffer, 1) of a buffer that is not empty is the buffer; partition(buffer, num) with more partitions than bytes is empty, for every type of message. On a machine with one core the multithreaded commands therefore report and print exactly what the sequential ones do (up to a panic, if there is one), with one extra line about the threads below the title; par_iter prints the line of iter; only par_count_hello_world_raw names what it counts differently. With more cores than the file has bytes every multithreaded command reports nothing (zero, or no lines), whatever is in the file. On an empty file all 21 commands report nothing.", "quantifier": "all files, all commands, all numbers of threads, all schedules, all message types (for partition)", "why_tests_cant": "a test runs on the cores of its machine, with the files at hand", "anchors": ["matchit/src/lib.rs:partition_from", "ripdlt/src/main.rs:multithreaded", "ripdlt/src/main.rs:par_timestamp_splitit", "ripdlt/src/main.rs:par_continuous_timestamp_histogram"]}
{"id": "C129", "title": "Merging twice settles the spans", "statement": "A pipeline that ends in .merge(merge_overlapping, key).merge(merge_overlapping, key) yields spans no two of which overlap or can be merged, in increasing order; they cover exactly the seconds the spans in front of it cover, two neighbouring seconds are in one span exactly if they are in one input span, and each span consists of the first message of an input span and the last message of one. The (first, last) seconds of the result do not depend on the order in which the spans arrive or on repetitions. A third merge changes nothing. The second merge changes nothing exactly if no span, when it arrives, bridges a gap between earlier ones. More generally, merge changes nothing on values in order no two of which can be merged, whatever the merge function and key.", "quantifier": "all pipelines in front, all inputs, all sequences of spans that end no earlier than they start; the last statement for all merge functions and keys", "why_tests_cant": "it ranges over all orders in which spans can arrive", "anchors": ["matchit/src/generator/groupby.rs:Merge", "matchit/src/generator/adapter.rs:merge", "ripdlt/src/main.rs:merge_overlapping_timestamps"]}
{"id": "C130", "title": "Laws for rewriting pipelines", "statement": "Pipelines can be restructured without changing what they return on any input. Two maps in a row are one map with the composed closure; two filters in a row are one filter that asks the second question only if the first is answered yes; a filter behind a map may be moved in front of it by testing the mapped value. A reducer behind two chains of adapters is the reducer behind their concatenation, a reducer behind no adapters is the reducer, and adapters in front of a fork may be put into its branches. Parts that give the same may replace each other behind adapters, in a fork and in a split. A filter on the split key keeps exactly the entries of those keys and leaves their values alone; splitting by one key and then another gives the same entries as the other way round; and what a split collects under its keys is the input: nothing is lost, nothing is there twice, each key's list is non-empty, in input order, and has exactly the elements with that key. The laws for adapters, forks and replacement hold for panics too: one side panics exactly if the other does; and the two nested splits return on the same inputs.", "quantifier": "all chains of adapters, all reducers built with the API, all closures whose result depends on the argument only (fold closures may also keep state), panicking or not, all inputs", "why_tests_cant": "it ranges over all pipelines and closures", "anchors": ["matchit/src/generator/adapter.rs:map", "matchit/src/generator/adapter.rs:filter", "matchit/src/generator/reducer.rs:Split", "matchit/src/generator/reducer.rs:Fork"]}
{"id": "C131", "title": "How far damage reaches", "statement": "Some bytes of a file are overwritten, its length stays. If the overwritten bytes lie inside messages and spare their start markers and length fields, the reader yields as many messages as before, at the same offsets and of the same lengths, the messages whose bytes are intact are the same, and count and histogram_message_size report and print the same. Whatever is overwritten, the messages that end in front of the damage are yielded as before, by the reader and by the search, and nothing new appears there. Going backwards, all messages in front of and behind the damage are yielded as before. Behind the damage, in a file where no message or marker starts inside a message, the search yields what it yielded before except the messages that start inside a message found in the damaged part, so every message that starts 65550 bytes or more behind the damage is found; the reader does the same unless the damaged part contains a start marker that starts no complete message: there it ends for good. If a whole message is overwritten and no start marker appears in its place, exactly that message is lost.", "quantifier": "every file, every range of overwritten bytes, every new content", "why_tests_cant": "it ranges over all files and all ways to damage them", "anchors": ["matchit/src/searchable/readfallbackit.rs:ReadFallbackIterator::next", "matchit/src/searchable/searchit.rs:SearchIterator::next", "matchit/src/searchable/searchit.rs:RevSearchIterator::next", "ripdlt/src/main.rs:count"]}
{"id": "C132", "title": "How many periods and lifecycles are reported", "statement": "If the commands report: histogram_timestamp shows, in all buckets together, one period, and one more for every message whose storage time is lower than that of the message in front; histogram_lifecycles one lifecycle, and one more for every message with a time stamp that has a lower time stamp than the message with a time stamp in front, or another ECU id; split_lifecycles for every ECU one lifecycle, and one more for every message with a time stamp that is lower than that of the ECU's message in front, whatever other ECUs log in between. So, if the messages of every ECU are a sequence of boots in each of which the clock does not go back, and each of which starts lower than the one in front ended, split_lifecycles shows exactly the boots with their durations, however the ECUs are interleaved; a boot that starts no lower than the one in front ended is not seen.", "quantifier": "every file, every way to interleave the ECUs", "why_tests_cant": "it ranges over all files and all interleavings", "anchors": ["ripdlt/src/main.rs:continuous_timestamp_histogram", "ripdlt/src/main.rs:lifecycle_histogram", "ripdlt/src/main.rs:lifecycle_splitit"]}
{"id": "C133", "title": "Logs in order of time", "statement": "histogram_timestamp shows a single period if and only if there is a message and no message has a lower storage time than one in front of it; the period is then the time from the first message to the last. On such a log split_timestamp shows one period for each ECU, from its first message to its last. On several threads (in a log of messages of at most 65536 bytes without straddling messages) par_histogram_timestamp shows instead one period for each slice that holds a message, and par_split_timestamp for each ECU one period for each slice that holds a message of it, whatever the schedule.", "quantifier": "every file or log, every number of threads, every schedule", "why_tests_cant": "it ranges over all files, thread numbers and schedules", "anchors": ["ripdlt/src/main.rs:continuous_timestamp_histogram", "ripdlt/src/main.rs:timestamp_splitit", "ripdlt/src/main.rs:merge_overlapping_timestamps"]}
{"id": "C134", "title": "Any number of logs, one after the other", "statement": "If all logs but the last are read to their last byte, then on the logs written one after the other: a sequential command other than itertools panics exactly if it panics on one of the logs; count and count_hello_world report the sums; every line of the size and message type histograms, and the number of messages of every ECU in the split commands, is the sum of the lines of the logs, the total in kB is the sum up to less than 1 kB per log; k copies of one log give k times the counts; and if every log has a message, histogram_timestamp shows at most the periods of all logs together and loses less than one for every log.", "quantifier": "every list of files of at most isize::MAX bytes in all", "why_tests_cant": "it ranges over all lists of files", "anchors": ["ripdlt/src/main.rs:count", "ripdlt/src/main.rs:histogram_message", "ripdlt/src/main.rs:timestamp_splitit", "ripdlt/src/main.rs:continuous_timestamp_histogram"]}
{"id": "C135", "title": "Several threads and messages of more than 65536 bytes", "statement": "On a log with messages of any length (up to the 65551 bytes a DLT message can have), none of which has the marker DLT 0x01 more than 65535 bytes behind its start or a message starting in its last 3 bytes: each slice of a multithreaded run is read as exactly the messages that lie completely in it; a message that lies in no slice starts behind the slices, or a slice ends in its last 15 bytes. par_count prints the number of messages minus those a slice ends inside of and those that start behind the slices; par_count_hello_world panics exactly if one of the messages in the slices is incomplete and otherwise counts those with the text among them. In general every par_ command panics exactly if the sequential command panics on the messages in one of the slices, and otherwise reports the sum of the right reports on these. On the output of dd_dlt with payloads up to 65517 bytes and up to 4370 threads no message is cut.", "quantifier": "every such log, every number of threads, every schedule; every input and id of dd_dlt with these payload sizes", "why_tests_cant": "A cut inside a message needs a message of more than 65536 bytes and a slice size that hits its last 15 bytes; for which files this happens and that nothing else is lost is a statement about all of them.", "anchors": ["matchit/src/lib.rs:partition_from", "matchit/src/lib.rs:contained_by", "ripdlt/src/main.rs:count_hello_world", "matchit/src/searchable/readfallbackit.rs:ReadFallbackIterator"]}
{"id": "C136", "title": "Where count_hello_world_raw finds the text in a log", "statement": "On a log of messages one after the other count_hello_world_raw prints the number of places in the messages at which the text stands: none across the border of two messages. par_count_hello_world_raw prints the same for the messages in the slices (none longer than 65536 bytes); those left out start behind the slices. On the output of dd_dlt, also if payload bytes were lost, no text starts in the first 30 bytes of a header, whatever the ids and the message number: the text is counted in the application id followed by the bytes written of each payload. If nothing was lost and the application id does not end with the start of the text, the number is that of the places of the input at which the text stands within one payload (with several threads: one of the payloads in the slices).", "quantifier": "every log of messages, every number of threads and schedule; every input, pair of four-byte ids, payload size and build of dd_dlt", "why_tests_cant": "The text could arise at a border of messages or from counters, times, lengths and ids in a header; that this never happens ranges over all 2^32 message numbers, sizes and ids.", "anchors": ["ripdlt/src/main.rs:count_hello_world_raw", "ripdlt/src/main.rs:par_count_hello_world_raw", "dd_dlt/src/main.rs:main", "matchit/src/lib.rs:partition_from"]}
{"id": "C137", "title": "Iterator pipelines do what the loop does, also when reading and closures have effects", "statement": "Take an iterator whose next may have effects (read, log, count), may panic or not return, but answers None for ever once it has answered None. Put any chain of filter, map, groupby and Merge around it, with closures that have effects, and drain it with any reducer (fold, fork, split, nested). This does exactly what a for loop over the bare iterator does that feeds a generator with the same chain: the same calls of the source and the closures in the same order, hence the same effects, result and panic, and it returns exactly when the loop does. An item is read, everything is done with it, then the next is read; after a panic nothing more is read. With filters, maps and a fold it is the loop one would write by hand; groupby asks about each pair of neighbours once. Without effects the results are those of the model without effects. A source that goes on after None is read on by groupby where the loop stops.", "quantifier": "every chain, reducer, source with effects, closures with effects, start world; every list and read action", "why_tests_cant": "Order of reads and calls, panics and divergence for all chains, closures, effects and sources; a test fixes one pipeline and one log.", "anchors": ["matchit/src/fromgenerator.rs:FromAdaptFn", "matchit/src/fromgenerator.rs:groupby", "matchit/src/fromgenerator.rs:split", "matchit/src/generator/reducer.rs:Reducer", "matchit/src/generator/adapter.rs:Adapter"]}
{"id": "C138", "title": "Message types with an empty marker", "statement": "The trait allows a type whose marker() is empty. For such a type ReadFallbackIterator is ReadIterator with try_read_valid_marker: it never searches and ends for good where there is no value. SearchIterator takes the value at its position; where there is none, next never returns. RevSearchIterator does not move: it gives the value at its position again and again, and where there is none next never returns; it never comes to an end on any file, from any start but usize::MAX. contained_by returns the first position, at most max_len() in front, at which a value starts that reaches to the end of the range, without asking whether it lies inside another one. For every other marker the four functions are the ones the other properties speak about.", "quantifier": "every type with an empty marker, every slice, offset and range", "why_tests_cant": "That a call never returns, and that a reverse iterator never ends whatever the file, cannot be observed by running it; the equalities range over all types, files and offsets.", "anchors": ["matchit/src/searchable/mod.rs:SearchableMarkerTrait", "matchit/src/searchable/searchit.rs:SearchIterator", "matchit/src/searchable/searchit.rs:RevSearchIterator", "matchit/src/searchable/readfallbackit.rs:ReadFallbackIterator", "matchit/src/lib.rs:contained_by"]}
{"id": "C139", "title": "Patterns and slices for message types with an empty marker", "statement": "For a type whose marker() is empty, GrepIterator gives the first value that starts exactly where a match of the pattern starts: values that contain the text elsewhere are not found, and it does not matter whether the match ends in the value. Matches at which no value starts are skipped as a whole; after a hit it goes on behind the value. next does not return exactly if it gets in this way to an empty match at which no value starts, and never panics. RegExMatcherIterator searches in the same way and ends at a match without group 1. partition_from moves a cut back to the first place, at most max_len() in front of it, at which a value can be read that goes on behind the cut, also if that place is inside another value. For every other marker the functions are the ones the other properties speak about.", "quantifier": "every type with an empty marker whose reads do not panic, every pattern, slice, offset and number of slices", "why_tests_cant": "Equivalences over all types, patterns, files and offsets; that a call never returns cannot be observed.", "anchors": ["matchit/src/searchable/grepit.rs:GrepIterator", "matchit/src/searchable/grepit.rs:RegExMatcherIterator", "matchit/src/lib.rs:partition_from", "matchit/src/searchable/mod.rs:SearchableMarkerTrait"]}
{"id": "C140", "title": "Exit code 0 of ripdlt means that the right report was printed", "statement": "If ripdlt ends with exit code 0 on an output that may refuse or end early, the output has the whole text: the command line, the title and the lines of the report; nothing was written to stderr. For a command that runs on one thread, the file is then not one on which the command panics, and the lines are the right report on the messages of the file. If the output takes only so many bytes, the exit code is 0 exactly if the file does not make the command panic and the text fits, and what is written is the text up to the room there is; if the file makes it panic the exit code is 101. Two runs of a command line that end with exit code 0 and write the same text report the same, whatever the files, core counts and outputs were.", "quantifier": "every output (any sequence of accepted lengths and refusals), every file, file content, command, argument list and number of cores", "why_tests_cant": "Quantifies over all files, outputs and thread schedules; an output that ends at every possible byte cannot be tried.", "anchors": ["ripdlt/src/main.rs:main", "rapiddlt/src/dltbuffer.rs:DltBuffer"]}
{"id": "C141", "title": "The reports of the sequential commands are determined", "statement": "For a file and its messages there is exactly one report a command that runs on one thread may print, and it prints a report if and only if the file is not one on which the command panics and the report is that one. In particular the durations split_timestamp shows are those of the runs of each ECU's messages, absorbed one after the other in the order of the file (a run that meets no earlier span stands alone, otherwise the first span it meets is extended to cover it), and the messages the pattern commands count are those the leftmost-first search comes upon.", "quantifier": "every file, every command that runs on one thread, every report", "why_tests_cant": "A test compares single reports; that the specification allows no other report is a statement about all reports on all files.", "anchors": ["ripdlt/src/main.rs:main", "ripdlt/src/main.rs:timestamp_splitit", "ripdlt/src/main.rs:merge_overlapping_timestamps", "matchit/src/generator/groupby.rs:Merge", "matchit/src/searchable/grepit.rs"]}
{"id": "C142", "title": "The periods split_timestamp shows for an ECU", "statement": "split_timestamp shows a single period for an ECU exactly if of no run of its messages (up to the next message with a lower second) all seconds are below those of all messages of the ECU before it. If no message of the ECU has a lower second than the first one, the one period shown lasts from the first second to the highest, however the seconds go up and down. The periods have no second in common exactly if no run bridges a gap that is there when it arrives, and then two runs are in the same period exactly if they are linked by runs that overlap. The durations shown for an ECU add up to no more than the time between its earliest and its latest message.", "quantifier": "every file (every sequence of storage times per ECU)", "why_tests_cant": "Ranges over all orders in which the seconds of the messages of an ECU can go up and down.", "anchors": ["ripdlt/src/main.rs:timestamp_splitit", "ripdlt/src/main.rs:merge_overlapping_timestamps", "matchit/src/generator/groupby.rs:Merge", "matchit/src/generator/groupby.rs:GroupBy"]}
{"id": "C143", "title": "The report of a multithreaded command is the sum of the reports on the slices", "statement": "A par_ command of ripdlt panics exactly if the sequential command of the same kind panics on one of the slices the file is cut into. Otherwise it reports exactly the sum of the reports this command gives on the slices, whatever the schedule: numbers are added; a histogram has a line for every key that has a line in a slice's histogram and for no other, with the counts added; for each ECU the messages are added, and the durations line by line; and the lines are in order. par_iter reports nothing. There is only one such sum, so the report is determined by the reports on the slices.", "quantifier": "every file that fits in memory, every positive number of threads, every par_ command, every schedule, every report", "why_tests_cant": "A test compares single reports from single schedules; that no other report is possible, on every file and for every order in which the slices are merged, is a statement about all of them.", "anchors": ["ripdlt/src/main.rs:multithreaded", "ripdlt/src/main.rs:par_continuous_timestamp_histogram", "ripdlt/src/main.rs:par_timestamp_splitit", "ripdlt/src/main.rs:main"]}
{"id": "C144", "title": "The threads of par_iter on an output that refuses what is written", "statement": "In par_iter every thread prints a line of its own; when the output refuses the line of one of them, this thread panics and the others may go on printing. Even so: the exit code is 0 only if the complete text of a run came out, and 101 otherwise. If the output has room for a certain number of bytes, exactly that many bytes of the front of the text of some run come out, and the exit code is 0 exactly if the run is otherwise successful and its text has room. On any output, what comes out is part of the text of some run: no byte is made up, repeated or out of order. But it need not be a front of it: on an output that refuses once and recovers, the line of a thread can follow a part of the line of another, and two threads that count 1 and 0 lifecycles print '10 lifecycles'. The exit code is then 101. All other commands print from one thread, and nothing changes for them.", "quantifier": "every behaviour of the output, every file that fits in memory, every number of threads, every schedule, every order and choice of the threads that still print, every cut of the lines into pieces, all arguments", "why_tests_cant": "Which threads still print after one has been refused, and in which order, depends on the schedule; and a test has one output with one way to fail.", "anchors": ["ripdlt/src/main.rs:multithreaded", "ripdlt/src/main.rs:lifecycle_iter", "ripdlt/src/main.rs:main"]}
{"id": "C145", "title": "dd_dlt processes its complete standard input or reports a failure", "statement": "Standard input comes in pieces of any size, reads can be interrupted by signals, and reads can fail. dd_dlt's output, report and exit code depend on none of this: with the same bytes it does the same, however they come, in few or many reads, with or without interruptions. If a read fails, dd_dlt reports it.", "quantifier": "every sequence of results of read(2): pieces of any size, interruptions and errors at every position; every payload size; every output; all arguments", "why_tests_cant": "Read errors and interruptions have to be injected, and the sizes of the pieces relative to the payload size and to the 8192 byte buffer of standard input have unboundedly many cases.", "anchors": ["dd_dlt/src/main.rs:main"]}
{"id": "C146", "title": "32-bit builds agree with 64-bit builds", "statement": "On a machine on which usize has 32 bits, debug and release builds of the library and of ripdlt do what they do on a 64-bit machine with every file that fits there (fewer than 2^31 bytes): the iterators (RevSearchIterator also when asked again after None), contained_by and partition return the same, and every command prints the same bytes and ends the same way, on any number of threads and for every schedule.", "quantifier": "every file of fewer than 2^31 bytes, every position, pattern, slice count, command line, number of threads and schedule, every arithmetic that is exact up to 2^32-1", "why_tests_cant": "Tests run on 64-bit machines; the sums that need more than 32 bits need files near 2 GB or time stamps at both ends of their range.", "anchors": ["matchit/src/searchable/readfallbackit.rs:next", "matchit/src/searchable/searchit.rs:next", "matchit/src/searchable/searchit.rs:RevSearchIterator", "matchit/src/searchable/grepit.rs:GrepIterator", "matchit/src/lib.rs:partition_from", "ripdlt/src/main.rs:continuous_timestamp_histogram", "ripdlt/src/main.rs:main"]}
{"id": "C147", "title": "Reading a mapped log while it is being written", "statement": "mmap_file does not copy the file: the iterators see what is in it at the moment they look. Whatever is written into the file meanwhile, dltit never panics, returns messages in the order of their offsets, without overlap and inside the mapping, each of them seen in the file during the call. What is written over messages already returned does not matter. If a log is written into a file of zeros message by message, asking dltit again and again returns every message exactly once, complete and in order; if it is written byte by byte, the offsets and sizes are still right, but a message can be returned with zeros in the place of bytes not written yet, and one of 256 bytes or more with the wrong size if it is looked at between the two bytes of its length. SearchIterator does not have these properties: it can skip messages that appear while it searches, and return overlapping ones.", "quantifier": "every length of the mapping, every sequence of versions of the file, one for each access of each call; every list of messages, every progress of the writer, every number of calls", "why_tests_cant": "The outcome depends on what the writer does between any two accesses of the reader; tests use files that nobody writes to.", "anchors": ["rapiddlt/src/dltbuffer.rs:mmap_file", "matchit/src/searchable/readfallbackit.rs:next", "matchit/src/searchable/searchit.rs:next", "rapiddlt/src/dlt_v1.rs:try_read_valid_marker", "rapiddlt/src/dlt_v1.rs:dltit_offset"]}
{"id": "C148", "title": "What a pipeline keeps in memory", "statement": "A pipeline of the generator API works on a stream: after any inputs it keeps one accumulated value for each fold and at most the two ends of the open group for each groupby; filter and map keep nothing. A pipeline without merge and split therefore runs in constant memory, whatever is fed. split keeps a reducer for each key that has occurred, and that reducer keeps what it keeps of the inputs with its key: memory grows with the keys, not with the inputs. merge lets nothing out before finalize and keeps every value that could not be merged, without bound; its first finalize copies them all. What has come out of a chain of adapters so far is fixed by the inputs so far: a group comes out with the input that ends it.", "quantifier": "every nesting of fold, fork, split and chains of filter, map, groupby and merge; every closure, also one that panics; every sequence of inputs", "why_tests_cant": "A test shows the result; what is kept on the way there, for every length of the input and every nesting, it does not show.", "anchors": ["matchit/src/generator/groupby.rs:GroupByState", "matchit/src/generator/groupby.rs:Merge", "matchit/src/generator/reducer.rs:Split", "matchit/src/generator/reducer.rs:Fold", "matchit/src/generator/reducer.rs:Fork", "matchit/src/generator/reducer.rs:Reducer", "matchit/src/generator/adapter.rs:Adapter"]}
{"id": "C149", "title": "How long reports can be", "statement": "The table a command of ripdlt prints has a bound that does not depend on the file: at most 22 lines for the message types, 65532 for the message sizes and for the payload sizes, 429497 for the lifecycles, 2^32 for the seconds, and 383270912 for the ECUs, which is how many texts of four bytes there are; whatever the file, sequential or parallel; only the table of the offsets grows with the file, by a line for each 100 MB. And it never has more lines than the file has room for messages: 20 bytes for each line. The bounds are exact: for each of these commands there is a file that reaches it.", "quantifier": "every file, every command, every number of threads; for the bounds reached: a file exists", "why_tests_cant": "A bound on the output for all files, and the worst case is a file of many gigabytes.", "anchors": ["ripdlt/src/main.rs:main", "ripdlt/src/main.rs:mstp_info_histogram", "ripdlt/src/main.rs:histogram_payload", "ripdlt/src/main.rs:histogram_message", "ripdlt/src/main.rs:lifecycle_histogram", "ripdlt/src/main.rs:continuous_timestamp_histogram", "ripdlt/src/main.rs:timestamp_splitit", "ripdlt/src/main.rs:histogram_hello_world"]}
{"id": "C150", "title": "A log split by ECU", "statement": "If the messages of each ECU are copied from a log into a file of their own, then split_timestamp and split_lifecycles print for that file exactly the line they print for this ECU on the whole log; a sequential command other than itertools panics on the log exactly if it panics on the file of some ECU; the counts and the histograms of sizes, payload sizes and types of the files add up to those of the log; the files one after another, in any order of the ECUs, are not longer than the log and give the same counts, histograms of sizes and kinds, and split reports as the log; histogram_lifecycles on the file of an ECU shows the lifecycles split_lifecycles shows for it, if its messages carry one ECU id in the standard header too; histogram_timestamp shows no more periods for any selection than for the log, but its table is not the sum of the tables of the files.", "quantifier": "every file of at most isize::MAX bytes, every ECU, every list of the ECUs without repetition, every selection of messages; for the last: a log exists", "why_tests_cant": "It relates the report on a whole log to the reports on all the files cut from it, for every log and every ECU.", "anchors": ["ripdlt/src/main.rs:main", "ripdlt/src/main.rs:timestamp_splitit", "ripdlt/src/main.rs:lifecycle_splitit", "ripdlt/src/main.rs:lifecycle_histogram", "ripdlt/src/main.rs:continuous_timestamp_histogram", "rapiddlt/src/dlt_v1.rs:dltit_offset"]}
{"id": "C151", "title": "Moved clocks", "statement": "It makes no difference how far clocks are ahead, as long as no value leaves its field: two files with the same messages, one received by a recorder whose clock is ahead by some seconds, which may be different for each ECU, give the same report, and print the same text, or panic with every command that reports on messages; histogram_timestamp needs the same number of seconds for all ECUs, and does differ without. In the same way split_lifecycles and histogram_lifecycles give the same if the time stamps of each ECU are ahead by some units (ECUs told apart as the command does, by the id in the storage header or in the standard header), and iter and itertools if those of all ECUs are ahead by the same.", "quantifier": "every two files whose messages correspond, every difference of the clocks, positive or negative, for each ECU", "why_tests_cant": "It relates two runs of each command, for every log and every shift of the clocks.", "anchors": ["ripdlt/src/main.rs:main", "ripdlt/src/main.rs:timestamp_splitit", "ripdlt/src/main.rs:lifecycle_splitit", "ripdlt/src/main.rs:lifecycle_histogram", "ripdlt/src/main.rs:lifecycle_iter", "ripdlt/src/main.rs:lifecycle_itertools", "ripdlt/src/main.rs:continuous_timestamp_histogram"]}
{"id": "C152", "title": "Renamed ECUs", "statement": "If the ECU ids in the storage headers of a log are replaced by others, the commands that print no ids report and print the same; and if different ids stay different, split_timestamp and split_lifecycles print the same lines with the new ids, in the order of the new ids. split_timestamp panics then exactly if one of the new ids is not UTF-8, and with ids that are UTF-8 before and after, the split commands panic on both files or on none.", "quantifier": "every two files whose messages correspond, every replacement of the ids (for the lines: one-to-one on the ids of the log)", "why_tests_cant": "It relates two runs of each command, for every log and every renaming.", "anchors": ["ripdlt/src/main.rs:main", "ripdlt/src/main.rs:timestamp_splitit", "ripdlt/src/main.rs:lifecycle_splitit"]}

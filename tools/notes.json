{
 "C07": {
  "note": "States, counts and absence of leaks proved for calls on the cache; a failed load through a collection leaks the node (C07_collection_violated) and the counts race between shards (C07_counts_violated)."
 },
 "C08": {
  "note": "Proved for all keys whose low 32 bits are not 0x80000000; for that one abs is undefined and the index negative (C08_shard_violated). On the whole cache a get is defined and uses that shard; a release is defined exactly for what is held."
 },
 "C09": {
  "note": "Proved for every number of threads and every schedule in which no get is overtaken by 65536 or more exchanges between its read and its exchange; beyond that the 16 bit ABA counter comes round and an item is given twice (C09_aba_violated)."
 },
 "C10": {
  "note": "As C09; when the counter comes round an item is lost (C10_lost_violated)."
 },
 "C11": {
  "note": "Proved for every schedule under the assumption that freed handle memory keeps its contents. The assumption is needed: C11_useAfterFree_violated and C11_releaseRead_violated give schedules on which freed handles are read, C11_null_violated one on which a get returns NULL."
 },
 "C12": {
  "note": "Freeing is proved for every schedule; what a replace installs is proved for replaces that do not overlap. C12_lost_violated: of two overlapping replaces one resource is never installed and never freed."
 },
 "C13": {
  "note": "All storage strategies (memory, file, partly loaded, cached, partly loaded and cached) are shown to return the item's bytes after any history, to report keys outside with the right exception, and to give back on release what the get took. Open cases, with witnesses: when all nodes of the cache shard are held a get returns NULL without exception (full), or the previous item's pointer in a partly loaded collection (stale); an item is left with a dangling pointer after a failed read (dangling) and after release to a cache (reuse); an item whose size comes out smaller than its header is written outside its memory (short); key 0x80000000 (C08_shard_violated). I/O and allocation failures other than a short file are not modelled here, see C69. Witnesses in which all nodes of a cache are held use a cache smaller than cache.h:41-45 asks for; what they show is that this is not reported. With two or more shards it happens in a cache of that size too (C114)."
 },
 "C14": {
  "note": "Proved for every collection, range and failing get; the property is violated for the upper index 0xFFFFFFFF (C14_violated) and when a get returns NULL without exception (C14_null_violated). Witnesses in which all nodes of a cache are held use a cache smaller than cache.h:41-45 asks for; what they show is that this is not reported. With two or more shards it happens in a cache of that size too (C114)."
 },
 "C15": {
  "note": "Areas, items and reported lengths proved; violated for an image that ends inside a header (C15_violated) and for counts whose items take 4 GiB or more (C15_wrap_violated)."
 },
 "C17": {
  "note": "Code violates the property when the haystack ends inside the needle (C17_violated) and for the empty needle (C17_empty_violated); the rest is proved, and C17_result says exactly what is returned in all cases with a needle."
 },
 "C18": {
  "note": "Native floats are rationals with a rounding function that is exact on representable values. Conversion is proved for normal numbers; numbers below the stored range are stored as their significand, losing the exponent (C18_subnormal_violated), the signs of minus zero and minus infinity are lost and an infinity is read as NaN (C18_special_violated)."
 },
 "C22": {
  "note": "Splitting and ids proved; a name that has one segment and a trailing separator overflows the header array (C22_violated)."
 },
 "C23": {
  "note": "The HTTP_ prefix is not removed when one character follows it (C23_violated); all other names proved."
 },
 "C24": {
  "note": "Code violates the property when the value is truncated or the pseudo evidence array is too small (C24_*_violated); the rest is proved under the stated conditions."
 },
 "C25": {
  "note": "Proved while the array is not full and for values shorter than 32767 characters; violated otherwise (C25_violated, C25_size_violated)."
 },
 "C28": {
  "note": "Proved for ASCII names; violated for others, as sorting and searching use different orders (C28_violated)."
 },
 "C29": {
  "note": "Proved when the word after the profile can be read; the code reads it (C29_violated)."
 },
 "C30": {
  "note": "Proved for data sets with profiles and gets that succeed; otherwise NULL is dereferenced (C30_violated)."
 },
 "C31": {
  "note": "Proved for all well formed texts and for all texts without adjacent separators that have no more parts than the address holds; violated beyond (C31_violated) and for texts with fewer parts (C31_uninitialised_violated). For any text at all the result is given by the numbers read from its parts, so malformed texts are accepted (C31_malformed_violated)."
 },
 "C33": {
  "note": "Proved for all files: what is delivered are ends of lines, in order, each line at most once (C33_ends). All of it proved for files whose lines fit into the buffer and that either do not end with a line end or are shorter than the buffer. Missing because the code violates it: C33_lost_violated (lines left in the buffer when the last full read ends at the end of the file), C33_empty_violated (byte before the buffer read), C33_crlf_violated (extra empty line)."
 },
 "C34": {
  "note": "Proved for blocks below 4 GiB and allocations that succeed; violated otherwise (C34_violated, C34_failed_violated)."
 },
 "C35": {
  "note": "Proved for all histories in which a list is initialised and reset only when new or freed, as list.h:156 documents for reset; C35_reset_used shows that the condition is needed."
 },
 "C37": {
  "note": "Proved for every schedule of gets, releases, reloads and failures, with the exceptions shown: C37_reloadRead_violated (a reload reads the active data set without holding it) and lost replacements (C12). A failed initialisation from a file is taken to free the data set, as its contract in dataset.h:156-160 requires; the reload function does not free it itself."
 },
 "C40": {
  "note": "Proved for all indexes except the one equal to the count, for which no exception is set (C40_violated)."
 },
 "C41": {
  "note": "Violated: the RequiredPropertiesConfig count differs from the number of properties the engine selects when the text has separators that it does not split at, and getCount/array are wrong when the configuration is asked again; proved for texts whose only separators are commas."
 },
 "C42": {
  "note": "Proved for all stored formats under ordered values; violated for unparsable addresses, no memory and names that cannot be got (C42_*_violated). Witnesses in which all nodes of a cache are held use a cache smaller than cache.h:41-45 asks for; what they show is that this is not reported. With two or more shards it happens in a cache of that size too (C114)."
 },
 "C43": {
  "note": "Violated: exported FileGetFileName cuts the first character of a path without slash; base name of a plain name is NULL; stem of a name without extension in a directory with a dot fails; the newer temp file function reports only the result for the last directory, leaking copies; a directory exactly as long as the memory overflows it. The older function is proved in full. When random strings fail after a used name, that name stays in the destination (C43_random_violated)."
 },
 "C44": {
  "note": "The reserved size is at least n; it is not always a multiple of the alignment (C44_violated)."
 },
 "C45": {
  "note": "Violated: the message is dropped for some reasons of a missing value, and integers beyond the range overflow in atoi; the remaining parts are proved."
 },
 "C46": {
  "note": "Proved but for property names of one character after the prefix (C46_violated)."
 },
 "C48": {
  "note": "Proved for lists in which no name is a proper beginning of SetHeader of the kind C17 mistakes for it (C48_violated)."
 },
 "C49": {
  "note": "Exact: hasValue_exact says for which profiles the search for the value reads the word after the profile; when that cannot be read it is undefined (C49_overrun_violated)."
 },
 "C52": {
  "note": "Proved for single separators; more separators in a row give extra invalid addresses (C52_violated), and C52_rows says exactly which for any row of separators."
 },
 "C53": {
  "note": "Proved for empty lists only; for others the pointer freed is not the one allocated (C53_violated)."
 },
 "C54": {
  "note": "Proved whenever the shards together have fewer than 2^31 nodes, so for all capacities below 2^30; the int32_t capacity overflows above (C54_capacity_violated)."
 },
 "C55": {
  "note": "Proved for concurrency below 65535, for which the item count wraps to 0 (C55_wraps_violated)."
 },
 "C56": {
  "note": "Proved for files that can be read and seeked; violated when a read fails (reported as success), when the size cannot be determined (empty copy, success) and when source and destination are the same (emptied, success). Streams are taken as unbuffered here; for the buffer see C113."
 },
 "C57": {
  "note": "Proved for the first directory and comparisons of at most 1024 bytes at once; violated: only the first directory is searched; larger comparisons overflow the buffers; any file counts as a copy of an empty master. Directories and entries too long for the path buffer are left out, and with no directories nothing is ever found."
 },
 "C58": {
  "note": "Proved for the first directory and less than 256 files; violated: other directories are not searched, the number wraps at 256, backups and files that only agree in the compared bytes are deleted."
 },
 "C59": {
  "note": "Proved but for the root directory, which is never searched (violated); directories so deep that the path does not fit are given up on (C59_deep_violated)."
 },
 "C60": {
  "note": "Proved for files in the documented format that fit; the violated theorems show each way in which the conditions are needed."
 },
 "C61": {
  "note": "Proved for all limits except zero (C61_zero_violated)."
 },
 "C62": {
  "note": "The keys are proved to be exactly those; that they lead back is proved but for names of one character (C62_header_violated, C62_override_violated)."
 },
 "C64": {
  "note": "Parsing and construction proved; the copy uses the enum value as a length (C64_copy_violated) and IPv4 objects are not initialised in full (C64_uninitialised_violated)."
 },
 "C65": {
  "note": "The directories are proved to reach the C configuration; arrays set earlier leak (C65_leak_violated)."
 },
 "C66": {
  "note": "Messages and codes proved for exceptions that are set; violated for clear exceptions and for the code of exceptions thrown by the C++ macro (C66_clear_violated, C66_fatal_violated)."
 },
 "C67": {
  "note": "Proved for all names; containsProperty only for ASCII names, because of C28 (C67_violated)."
 },
 "C68": {
  "note": "Proved if the structures can be allocated, the cache is possible, and the first seek succeeds when items are to be loaded; otherwise the code leaks (C68_leak_violated) or dereferences NULL (C68_noMemory_violated, C68_noMemory_memory_violated, C68_seek_violated)."
 },
 "C69": {
  "note": "Proved if the exception is clear when called and the data is not left over from a failed read; otherwise a handle is lost (C69_stale_violated, C69_stale_fixed_violated) or freed memory is written (C69_reuse_violated)."
 },
 "C70": {
  "note": "Proved for data sets without temporary file, and with new temporary files in any number of directories that no existing file is changed, with at most one directory also that everything is restored. Violated: reused temporary files are deleted under other data sets (C70_shared_violated) or are the user's own (C70_backup_violated), copies are left behind with several directories (C70_left_violated), a foreign file is deleted after a failing random name (C70_random_violated), and a data set that was only reset cannot be freed (C70_reset_violated)."
 },
 "C71": {
  "note": "Proved but for empty files and data, which are reported as failures (C71_empty_violated, C71_write_empty_violated), the tracked memory after a failed read (C71_tracking_violated), the part left by a failed write (C71_write_left_violated), and pools of files that cannot be positioned (C71_pool_violated). Streams are taken as unbuffered here; for the buffer see C113."
 },
 "C72": {
  "note": "Proved for every kind of storage but for a cache with a shard all of whose nodes are held (C13_full_violated) and the key 0x80000000 of a cache (C08_shard_violated). Violated for a file with a string of length -1 or -2, which is written past its memory (C72_string_violated), and with a profile of 2^30 values, which is taken for one of 9 bytes (C72_profile_violated)."
 },
 "C73": {
  "note": "Proved when no shard of the caches has all of its nodes held; otherwise a search can return the offset of another profile without an exception (C73_wrong_violated). An empty table is C30_violated. Witnesses in which all nodes of a cache are held use a cache smaller than cache.h:41-45 asks for; what they show is that this is not reported. With two or more shards it happens in a cache of that size too (C114)."
 },
 "C74": {
  "note": "One caller at a time: the interleavings of threads in the cache are C01. Whether the get of a cached item returns something at all is C13; C74_room says that it does while the number of items held stays below the nodes of a shard."
 },
 "C51": {
  "note": "Besides the list over plain bytes, proved for collections of any kind of storage and with the release of the list. With fewer nodes in the cache than components, filling the list never ends (C51_endless_violated): the get returns NULL without an exception and the loop tries again. Witnesses in which all nodes of a cache are held use a cache smaller than cache.h:41-45 asks for; what they show is that this is not reported. With two or more shards it happens in a cache of that size too (C114)."
 },
 "C75": {
  "note": "Proved when releasing with the collection of the offsets is right for the profiles: both in the file, both cached, both in memory, or the offsets partly loaded. In the other combinations profiles are left out, memory is lost, or memory of the cache is freed, since the profile's item is released with the wrong collection. Profiles for which the search reads past the end are C49. With the profiles in memory and the offsets in the file or cached, a handle that was never set is released. The handles of local items before they are set are arbitrary in the model. Witnesses in which all nodes of a cache are held use a cache smaller than cache.h:41-45 asks for; what they show is that this is not reported. With two or more shards it happens in a cache of that size too (C114)."
 },
 "C76": {
  "note": "C76_balance is the full claim for what is held, whatever fails, wherever creation is defined. C76_create_partial (defined, complete and right) needs every read to succeed: a read that fails while the matches are counted and not when they are added makes the second pass write beyond the list. Freeing needs the names to be of a collection: a source without one is handled when names are looked up but not when the list is freed."
 },
 "C77": {
  "note": "C77_success is exact whatever fails. The reasons are exact if every read succeeds, except that a lack of memory for the list is reported as a property not present. A name that cannot be read is compared before it is checked."
 },
 "C78": {
  "note": "C78_made is full for headers that are made. When creation fails, at most one item and one block are lost (C78_null_partial, exact witnesses in C78_leak_violated). That creation is defined and gives the headers of C22 needs every read to succeed (C78_create_partial)."
 },
 "C79": {
  "note": "C79_values, C79_last, C79_reuse, C79_free and C79_create are full: they hold for every pattern of failing allocations as long as behaviour is defined. Definedness needs memory (C79_defined_partial): a failed allocation makes the copy write through NULL (C79_alloc_violated). Pointers given out stay valid while only other properties are added to (C79_pointer_partial) and dangle after a longer value for the same property (C79_pointer_violated). Texts are C strings whose buffer size fits uint32_t."
 },
 "C80": {
  "note": "Proved when releasing with the collection of the properties is right for the strings: both in the file, both cached, both in memory, or the properties partly loaded. In the other combinations the wrong property is returned, memory is lost, or memory of the cache is freed, since the name's item is released with the wrong collection. Also the value type of a property and the id of the default profile of a component. With the strings in memory and the properties in the file or cached, a handle that was never set is released. The handles of items before they are set are arbitrary in the model. Witnesses in which all nodes of a cache are held use a cache smaller than cache.h:41-45 asks for; what they show is that this is not reported. With two or more shards it happens in a cache of that size too (C114)."
 },
 "C81": {
  "note": "Proved for values and strings kept in any way, by simulation of the search of C42, for names of all three formats. Not for properties without values (undefined unless in memory), for names outside of the strings (the value's item is lost) and for a full cache of strings (a wrong value is found). Witnesses in which all nodes of a cache are held use a cache smaller than cache.h:41-45 asks for; what they show is that this is not reported. With two or more shards it happens in a cache of that size too (C114)."
 },
 "C82": {
  "note": "Proved for strings kept in any way. Not for a full cache (an empty text), for coordinates and addresses read as texts (read past the end), and for the item of a failed get (NULL is followed). Witnesses in which all nodes of a cache are held use a cache smaller than cache.h:41-45 asks for; what they show is that this is not reported. With two or more shards it happens in a cache of that size too (C114)."
 },
 "C83": {
  "note": "Proved for the combinations of storage of C75 and C80, for properties with at least one value, when the search in each profile ends within it. Otherwise: the profiles of another property are reported, profiles are left out, or an item that was never set is released. Witnesses in which all nodes of a cache are held use a cache smaller than cache.h:41-45 asks for; what they show is that this is not reported. With two or more shards it happens in a cache of that size too (C114)."
 },
 "C84": {
  "note": "Proved for values kept in any way, with room in the cache for all the items, as the callback keeps them. With too few free nodes values are silently left out. When the last value of the profile is one of the property the word after the profile is read (C29). Witnesses in which all nodes of a cache are held use a cache smaller than cache.h:41-45 asks for; what they show is that this is not reported. With two or more shards it happens in a cache of that size too (C114)."
 },
 "C85": {
  "note": "Proved: in use exactly when the path is the end of the path of something open, so that a file open under its own path is kept. Violated: the end of another path counts; relative or otherwise written paths are missed, and the file deleted; a link of 4096 bytes makes a write after the buffer; closedir(NULL) for every entry that is no process."
 },
 "C86": {
  "note": "Steps are the sections under a lock and the calls of the system's allocator, which gives any address not in use. Partial: the first calls by two threads at once (not with MemoryTrackingReset called first, as memory.h:153-157 asks), turning tracking on with blocks in use and a record left by a free without tracking give wrong totals; blocks of 4 GiB or more are C34. Aligned allocation differs in the size recorded only (C33, C34). Allocation failure is not followed here."
 },
 "C87": {
  "note": "A function of the tree or of the list and the loader are one step each, all under the lock of the shard; accesses to the counts are steps of their own. Programs release only nodes they were given. Partial: the counts lose updates with more than one shard; memory is sequentially consistent; the lock is a mutex that is always given to some thread that waits (fairness is not modelled)."
 },
 "C88": {
  "note": "Getting a handle from the pool and giving it back are one step each, as C09 and C10 prove of the pool. The positions of two open files are independent; the file does not change while it is open. Failure to allocate the item is not a case here."
 },
 "C89": {
  "note": "Bounds of C87 and C88 apply: steps of the tree, of the list and of the pool are one step each, memory is sequentially consistent. Programs release each item once. That nodes whose load failed stay in use for ever is C07_collection_violated. Failure to allocate is not a case here. The key 0x80000000 is undefined in the choice of the shard (C08_shard_violated)."
 },
 "C90": {
  "note": "Only what is owned: the statuses are C71, C77 and C78, the working file is C70. At most 65534 files in the pool (C55_wraps_violated). Names must be of a collection (C76_collection_violated). What is lost when headers cannot be had is bounded by one item and one block each time."
 },
 "C91": {
  "note": "Partial: two reloads during a get can make the get return NULL (C91_null_violated); C91_later_partial assumes no other reload at the same time, as C37. A program thread with several requests is several threads of the model. One cached collection for each data set; its other collections are read uncached."
 },
 "C92": {
  "note": "Full for one manager, under the contract in the statement. Allocation of a handle is taken to succeed: setupResource writes through the result of MallocAligned without a check. C92_limit shows that the bound on the number of handles is needed."
 },
 "C93": {
  "note": "Full for up to 65534 users; at 65535 PoolInit itself is undefined (C55_wraps_violated). Unlike the threaded build (C09, C10) there is no limit from the ABA counter."
 },
 "C94": {
  "note": "Proved whenever the call with a structure reports no exception, for all kinds of collections and all the look-ups, and for failing gets from the file and from the part that is not loaded, fields and look-ups by id included. Otherwise violated: a key outside of a collection in memory is undefined (C94_memory_violated), a cached collection remembers the failure (C94_remembered_violated), a failing read of what is not loaded returns a pointer to freed memory (C94_rest_violated), a failing read of an offset is undefined even with a structure (C94_offset_violated), look-ups by name return a value or property whose name could not be read (C94_wrong_violated) or a pointer to freed memory (C94_dangling_violated), and the list of components never ends (C94_endless_violated)."
 },
 "C95": {
  "note": "That nothing more is reported is proved for all kinds of collections, and that nothing is lost for offsets in memory or in the loaded part. Violated for offsets in the file, where each of the remaining offsets costs a file handle for good, with the exact number, and the exception reported becomes INSUFFICIENT_HANDLES when there are none left (C95_handles_violated), and for cached offsets, where nodes of the cache are lost too (C95_nodes_violated)."
 },
 "C96": {
  "note": "Items, errors, counts and the condition for NULL are proved without restriction on well formed files. Violated: an item that does not end within the collection is given with less memory than it has bytes (C96_over_violated); after a failed seek or read the memory is given back with free instead of Free, so that the tracker counts it for ever (C96_counted_violated); NULL is dereferenced when the structures cannot be allocated (C96_noMemory_violated)."
 },
 "C97": {
  "note": "Proved for all histories, also of several objects, with these exceptions, each shown: an assignment to a key that is in the array leaves it with a pointer to freed memory (C97_assign_violated); the copy the compiler makes of an object shares its array, which is freed twice (C97_copy_violated); with memory tracking, clear and erase before the first get dereference NULL (C97_tracking_violated)."
 },
 "C98": {
  "note": "Proved for all histories: without CACHE_VALIDATE no assert of get and release ever fails, with it exactly a get that takes a node whose last load failed ends the process (C98_call_partial, C98_failedLoad_violated), and the check of a whole shard fails exactly when two nodes have failed loads. CacheCreate asserts that there is memory, where its documentation says NULL is returned (C98_noMemory_violated). The assert at the end of get cannot fail with any number of threads (C98_threads), but reads the count without the lock while another thread may write it (C98_race_violated). Shard capacities are below 2^31."
 },
 "C99": {
  "note": "The key is put into the address without encoding and through c_str. Proved: the server reads the three parameters meant if and only if the key has no zero byte, # or & and decodes to itself (C99_params_partial), and what it reads otherwise (C99_key_partial). Violated by keys with & (C99_injected_violated), + or %XX (C99_decoded_violated) and a leading zero byte (C99_zero_violated: enabled with no key)."
 },
 "C100": {
  "note": "Violated: deleting results in one thread while another deletes the engine reads a freed handle (C100_threads_violated), overlapping refreshes lose a data set (C100_lost_violated), and processing during two refreshes may get NULL (C100_null_violated). Proved for every schedule: the manager's memory, the data set kept (C100_manager_partial, C100_usable_partial, C100_same) and the data sets that were ever active (C100_end_partial), where the memory of freed handles is taken to keep its contents; without overlapping refreshes no data set is lost (C100_apart); without overlapping calls no freed memory is used and each call ends (C100_serial, C100_ends); for one thread everything (C100_alone). Not modelled: an engine whose opening failed, and derived classes beyond what the base classes document."
 },
 "C101": {
  "note": "Violated: ResourceManagerFree asserts through manager->active before it compares it with NULL, so freeing a manager with nothing in it, which does nothing in a release build, is undefined with asserts (C101_null_violated). Proved for every schedule (C101_same_partial; the memory of a freed handle is taken to keep its contents, as in C11) and without threads (C101_single). Not modelled: the asserts about sizes and alignment (resource.c:132, 214-216, 248-250, 283-285)."
 },
 "C102": {
  "note": "Proved for every schedule and all addresses of 64 bits (C102_same_partial, C102_totals_partial, C102_defined_partial, C102_records_partial, C102_empty_partial). Violated: no memory for a record (C102_record_violated), two allocations that fail (C102_failed_violated), Free(NULL) (C102_null_violated), and turning tracking on or off with blocks in use (C102_stale_violated, C102_before_violated). Blocks of 4 GiB or more are C34. Each tree is in a memory of its own; the record is freed in the step that removes it."
 },
 "C103": {
  "note": "Proved for every file, header, configuration and key (C103_get, C103_inside, C103_owner, C103_list, C103_overrides). The length in the header is a uint32_t, as in the code. Items of variable size are only shown to start in the memory: where they end is in their own bytes."
 },
 "C104": {
  "note": "Proved for every interleaving, for threads of different processes or with different strings. Violated: two threads of one process that read the same nanoseconds from the clock get the same file, which one empties or deletes under the other (C104_threads_violated, C104_emptied_violated), and the older function has no process id in the name (C104_older_violated). Directories are one per thread, names fit, and reuse of existing files is left out (see C57, C70)."
 },
 "C105": {
  "note": "Proved for numbers that are not negative. Violated for a negative number: no directory is tried, a build with asserts ends the process, and one without returns NOT_SET (C105_negative_violated)."
 },
 "C106": {
  "note": "Lock freedom, in numbers: at most 3 accesses per thread and call for the pool and 25 for the manager, for all threads together (`C106_pool`, `C106_manager`); five and nine accesses for a thread alone (`C106_pool_alone`, `C106_manager_alone`), eleven for a replace and twelve for a free that are called and run alone, with what they leave (`C106_replace_alone`, `C106_free_alone`). A single call has no bound: `C106_pool_overtaken`, `C106_manager_overtaken`. A replace that is given NULL by its get (C11) is undefined and is not in these executions."
 },
 "C107": {
  "note": "The bound is reached for every power of two (`C107_tight`). The range must not end at the largest `uint32_t`, where the bounds wrap (`C14_violated`)."
 },
 "C108": {
  "note": "The clause on exceptions is false: when memory for the node is refused no exception is set, and the key stays in the cache without its bytes, so later gets return nothing without an exception though there is memory again (`C108_refused_violated`); `C108_available_partial` covers histories without such a refusal. Everything else (`C108_total`, `C108_bounded`, `C108_bytes`, `C108_kept`, `C108_freed`) holds whatever memory is refused."
 },
 "C109": {
  "note": "The first clause is false: the request is replaced at each reload by what was available before, so a property asked for by name that is missing from one version is lost for good though later data have it (`C109_lost`, `C109_request_violated`), and a request for everything does not give properties that newer data add (`C109_all_violated`). `C109_available` states exactly what is available after any history; `C109_request_partial` gives the clause when no such property was missing. `C109_accepted` and `C109_places` prove the other two clauses."
 },
 "C110": {
  "note": "False when calls overlap: the second call saves the cleared mask, and when it returns last the process is left without a mask (`C110_lost_violated`), for good (`C110_stays`); and a file may be made with the mask (`C110_mode_violated`). Also false for files other threads make during a call (`C110_during_violated`). `C110_restored_partial` gives the property for calls that do not overlap; `C110_two` bounds the permissions in every history, and `C110_directory` proves the clause on directories. C110_nested_partial has the same for calls that overlap but are nested."
 },
 "C111": {
  "note": "False when queries overlap: a configuration for `A,B` lists `A` and `D`, the second from another configuration, which loses it (`C111_names_violated`); likewise for `containsProperty` (`C111_contains_violated`). `C111_own_partial` gives the property for queries that do not overlap, `C111_somewhere` says what holds in any case."
 },
 "C112": {
  "note": "False for copies: the class has a destructor but no copy constructor, so for every text both copies free the same block, and one reads it after the other is destroyed (`C112_copy_violated`); and without memory the constructors write to NULL (`C112_refused_violated`). `C112_owned_partial` and `C112_freed_partial` give the property for all other histories (copies of configurations without memory included)."
 },
 "C113": {
  "note": "False: the result of fclose is ignored (file.c:590, 1034), so for every way of buffering and all contents that leave bytes in the buffer there is a full device for which success is reported and the file is cut short (C113_write_violated, C113_copy_violated). Proved: with room the file is exact (C113_room), it always has a beginning of the bytes (C113_prefix), at most a buffer's worth is lost (C113_lost_partial), and exactly when a copy succeeds (C113_copy_success)."
 },
 "C114": {
  "note": "Proved for one shard (C114_size_partial); for any number of shards when fewer items are in use than the concurrency (C114_concurrency_partial) or than the size divided by the number of shards (C114_factor_partial). The size documented is not enough in any cache with two or more shards (C114_size_violated). Sizes from 2^30 are C54. Failed loads through a collection keep their node in use (C07_collection_violated)."
 }
}
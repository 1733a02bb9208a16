# Formal model of 51Degrees/common-cxx in Lean 4

## Trusted base

* Lean 4.33.0's kernel (and the Mathlib modules imported, all of which the kernel re-checked).
* Axioms: only `propext`, `Classical.choice` and `Quot.sound`. No axiom of our own, no `sorry`,
  no `native_decide`, no `bv_decide`. `lean/Verif/Audit.lean` prints the axioms of every property theorem.
* That the Lean definitions say what the C/C++ in `/repo` says. Every definition cites the file and lines
  it transcribes and says where it simplifies. The code was read, never run.

## Conventions

* A model definition follows one C function. Control flow, order of tests, and integer widths are kept when
  they can be observed (an `abs` on `int`, a `uint16_t` index, a `byte` counter are modelled with the width
  of the code).
* Undefined behaviour (out of bounds access, use of freed memory, NULL dereference) is a distinct outcome of
  the model (`none` of the type `UB`, or a constructor of the function's own outcome type), not assumed away.
* Memory allocation succeeds unless a property speaks of allocation failure.
* C strings are `List UInt8` without the terminating NUL.
* Model files are `Verif/<Area>/Model.lean`, helper lemmas `Verif/<Area>/Lemmas.lean`, independent
  specifications and property theorems `Verif/<Area>/Props.lean`. Theorem names start with the id of the
  property they establish (`C14_...`). A name ending in `_partial` proves less than the property; a name
  containing `_violated` proves that the code as written breaks the property (concrete witness).
* Concurrency is modelled as interleaving of atomic steps (one shared memory access each) of any number of
  threads over a sequentially consistent memory.

## Plan per property

| Id | What is modelled | How it is proved |
|----|------------------|------------------|
| C01-C03 | `tree.c` at pointer level: a heap of nodes with parent/left/right/colour fields, the `empty` sentinel and the `root` node (`Tree/`) | a heap represents a search tree; each pointer operation is shown to do what the tree operation does; red-black invariant by induction over the operation list |
| C04-C06 | one cache shard on the pointer-level tree: node array, doubly linked list, active counts; the whole cache as its shards (`Cache/`) | invariant over histories of get and release with any loader results; refinement of each call |
| C07, C08, C54 | same, the counters with two threads, the shard index with C `int` semantics, the arithmetic of `CacheCreate` | invariant; arithmetic; witnesses for the leak, the race and the overflow |
| C09, C10, C55 | `pool.c`: stack with 16 bit ABA counter, any number of threads, every atomic read and compare-exchange a step of its own (`Pool/`) | inductive invariant over reachable states, under the condition that no get is overtaken by 65536 exchanges; witnesses beyond it |
| C11, C12 | `resource.c`: `active` pointer, per handle counter word, any number of threads, every atomic access a step (`Resource/`) | inductive invariant over reachable states; witnesses for reads of freed handles, NULL and lost replacements |
| C13 | `collection.c`: creation from file, and get and release in memory, from file, partly loaded, cached and both; the cache is that of C04 (`Collection/`) | every get is shown to give the bytes of a spec slice of the file; invariant over histories for the cached ones |
| C14 | binary search loop over an abstract collection with failing gets (`Search/`) | loop invariant |
| C15 | memory reader and headers with 32 bit widths (`Memory/`) | arithmetic; induction over the collections of an image |
| C16, C17 | string comparison and search (`Str/`) | structural induction |
| C18 | float conversions over rationals; rounding is a parameter that is exact on representable values (`Flt/`) | arithmetic on the fields |
| C19-C21 | evidence array, iteration, prefix table, `EvidenceBase` (`Evidence/`) | induction on arrays |
| C22, C23 | headers creation and lookup (`Headers/`) | induction |
| C24 | pseudo header evidence with buffers (`Pseudo/`) | induction, buffer arithmetic |
| C25, C26, C46, C47 | overrides, profile ids, override names (`Overrides/`) | induction over histories |
| C27, C28, C48 | required and available properties; `qsort` is any function that gives an ordered permutation, `bsearch` is glibc's (`Properties/`) | induction, sortedness |
| C29, C30, C49, C50 | profile value iteration and lookup, property lookup (`Profile/`) | reuse of C14 |
| C31, C32, C52, C53 | IP parser, list, free and comparison (`Ip/`) | induction over text |
| C33 | text file iteration (`Text/`) | induction over file content |
| C34, C44 | allocation tracker, aligned sizes (`Memory/`) | invariant over histories |
| C35 | list (`Lst/`) | invariant over histories |
| C36 | status messages (`Status/`) | table + arithmetic |
| C37 | data set get, release, reload with failures on top of the model of C11, any number of threads (`DataSet/`) | invariant over reachable states; witnesses |
| C38 | data buffers (`Data/`) | invariant over histories |
| C39 | signal on POSIX mutex and condition variable with spurious wake ups (`Signal/`) | invariant over schedules |
| C40, C51 | component pairs and component list (`Component/`) | case split, induction |
| C41 | required properties configuration (`Config/`) | induction; witnesses |
| C42 | value lookup for all stored formats; `atof` and the float conversion are parameters (`Lookup/`) | reuse of C14 |
| C43, C56-C59 | file names, temporary files, copying, comparing, deleting, path search over a file system with failures (`File/`) | induction; witnesses |
| C45 | results and values (`Value/`) | case analysis |
| C60, C61 | YAML file iteration, character by character through the read buffer (`Yaml/`) | the reader is shown to consume the lines of the file whatever the buffer; induction over lines and documents |
| C62-C67 | `EngineBase`, `ValueMetaDataKey`, `IpAddress`, `ConfigBase`, exceptions, `ResultsBase` (`Engine/`) | induction; reuse of C22, C25, C27, C31; witnesses |
| C68 | creation and freeing of collections with failing seeks, reads and allocations (`Life/`) | ownership invariant: the memory in use is that of before plus the blocks of the objects made; witnesses for leaks and NULL |
| C69 | the file reads of collections with failing operations and the handles of the pool (`Life/`) | case analysis over an arbitrary failure pattern with the item's data as invariant; witnesses |
| C70 | initialising a data set from a file and freeing it, over the file system of `File/` (`Work/`) | no file that was there is changed by any step, induction over the directories; witnesses |
| C71 | reading and writing whole files and pools of readers (`Work/`) | case analysis over arbitrary limits and failures; witnesses |
| C72 | the readers of strings, components and profiles and `GetInteger32`, over the collections of `Collection/` (`Record/`) | the records of a list are the items of the collection, by induction over the list; then the theorems of C13; witnesses |
| C73 | the search for profiles by id and index, over two collections of any kind (`Record/`) | the search through a collection refines the search of C14 through the list of items; witness |
| C74 | sequences of gets and releases of one caller over the collections of `Collection/` (`Collection/Hold.lean`) | an invariant: each held item has its own block or a node of the cache with a user, and everything else is as at the start; induction over the uses |
| C75 | the loop over the profiles with a value, over two collections of any kind (`Record/Iterate.lean`) | each round borrows an offset and a profile and gives them back, induction over the rounds; witnesses for the wrong release |
| C76 | `properties.c` with every call of the caller's methods and every allocation as a step that may fail, names held as handles (`Avail`) | each pass gives back what it takes; the list's items account for what is held; induction over items for freeing; witnesses for a failing read and strings without a collection |
| C77 | `DataSetInitProperties` over the same model (`Avail`) | case analysis of the checks, using C76; witnesses for failing reads and memory |
| C78 | `headers.c` with every call of the get method and every allocation as a step that may fail (`HeadersMem`) | invariants of the loops on items and blocks; refinement of the model of C22 when reads succeed; witnesses for the leaks, a failing read and the status |
| C79 | the array of override values with a heap of blocks and their bytes, every allocation a step that may fail (`OverridesMem`) | representation invariant relating heap and array to the values of C25, kept by each call; frame for all other blocks; witnesses for NULL and for dangling pointers |
| C80 | `PropertyGetByName`, `PropertyGetValueType`, `ComponentGetDefaultProfileId` over collections of any kind (`Record/Names.lean`) | each round borrows a property and a name and gives them back, induction over the rounds; witnesses for the wrong release |
| C81 | `CollectionBinarySearch` with `compareValueByName`, `ValueGetIndexByName`, `ValueGetByName` over two collections of any kind (`Record/Values.lean`) | simulation of the search of C42 round by round, each comparison borrowing a name and giving it back; witnesses for a full cache, a missing name, an empty range |
| C82 | `MetaData::getString`, `EngineBase::appendString`, the string getters of properties, values and components, `IpiGetCoordinate`, over strings of any kind (`Record/Texts.lean`) | one borrowed string, decoded and given back; witnesses for a full cache, other formats, NULL |
| C83 | all of `ProfileIterateProfilesForPropertyAndValue` over five collections, each of any kind (`Record/Whole.lean`) | composition of C80, C81 and C75; witnesses for the wrong release, items that were never set, a full cache, a property without values |
| C84 | `ProfileIterateValuesForProperty` over values of any kind, with a callback that keeps the items (`Record/Each.lean`) | induction over the values with the invariant of C74 for the items held; witnesses for a cache with too few nodes, a profile read past its end |
| C85 | `isFileInUse` over the entries of `/proc`, and with the deletion of C58 (`File/InUse.lean`) | induction over entries and links; witnesses for a path that is the end of another, a relative path, a link that fills the buffer, `closedir(NULL)` |
| C86 | `tryInit`, `trackAllocation`, `untrackAllocation`, the tracking allocation and free, reset, turning tracking on and off, one step per section under a lock, by any number of threads (`Memory/Threads.lean`) | invariant over all interleavings: the shards hold exactly the recorded blocks, the total is the sum of the counted ones; witnesses for two threads at the first call, tracking turned on with a block in use, an address given again after a free without tracking |
| C87 | `fiftyoneDegreesCacheGet`, `fiftyoneDegreesCacheRelease` with `cacheLoad` and `cacheGetNextFree`, one step per access to the shard, to its lock and to the counts, by any number of threads (`Cache/Threads.lean`) | invariant over all interleavings: each shard is a state of C04–C06 after the calls that returned, plus what the thread with its lock has done so far; a rank for the end of a call; a witness for the lost count |
| C88 | `getFile` with `fiftyoneDegreesCollectionReadFileFixed`, `ReadFilePosition` and `ReadFileVariable`, one step per call to the pool, `fseek` and `fread`, by any number of threads sharing the handles (`Collection/Reading.lean`) | invariant over all interleavings: the handles held and those in the pool are those there are, each once, and the place of every thread agrees with the loader of C16 run alone; a rank for the end of a read |
| C89 | `getFromCache`, `loaderCache` and `releaseCache` over the machines of C87 and C88: a thread in the loader of the cache runs the steps of the read, other threads run theirs and read other collections (`Collection/Threads.lean`) | each machine's part of a run is a run of that machine; invariant that every item held is the last, successful, load into its node, which is of a read that succeeded; a rank for the end of a call |
| C90 | `DataSetReset`, the init functions and `DataSetFree` over one memory of blocks, held items and open files, with `PropertiesCreate` of C76, `HeadersCreate` of C78 and `PoolInit` of C55 (`DataSet/Owner.lean`) | invariant that the memory is what the parts own, what was lost and what was there before, as multisets; freeing each part takes off its own share; violations: headers that could not be had, a part initialised twice, no configuration |
| C91 | `DataSet/Requests.lean`: the reload machine of C37 and, for each data set, the threaded cached collection of C89, with what each request has got; a request uses a data set only between its get and its release. | An invariant (the use counts of the manager are the handles the requests have, the items of each collection are the sum of those of the requests that have its data set, threads without the data set are in no call with it), kept by every step; then C37, C89 for each data set. |
| C92 | The `FIFTYONE_DEGREES_NO_THREADING` branches of `resource.c` over a memory in which freed handles are gone, addresses may be used again, and an overflow of the counter is undefined (`Single/Resource.lean`) | refinement of a small book keeping of installed resources, users and freed resources; invariant relating handles, counters and books |
| C93 | The `FIFTYONE_DEGREES_NO_THREADING` branches of `PoolItemGet` and `PoolItemRelease` on a pool made by `PoolInit` of C55 with any results of `resourceCreate` (`Single/Pool.lean`) | refinement of a list as stack: the items linked from the head are the stack, and with the held items a permutation of the usable ones |
| C94 | The getters of `Verif/Collection` and the look-ups of `Verif/Record` with the exception pointer as a parameter (NULL, clear, with a failure) and the free file handles (`Quiet/Model.lean`) | for gets and look-ups without an exception equality with the models of C13, C72, C73, C80, C81 and C51, by induction on the rounds; for the file, and the part that is not loaded, also when they fail (`Quiet/Failing.lean`); the other failures with witnesses |
| C95 | The loop to its end, also after an exception, with the file handles shared by offsets and profiles (`Quiet/Iterate.lean`) | induction on the rounds; the rounds before the failure are those of C75, the rest gets every offset with the failure recorded |
| C96 | `CollectionCreateFromFile` of this build, its items (`Collection/Only.lean`) and its memory with the tracker's count beside it (`Life/Only.lean`) | the bytes of the collection are a slice of the file, on which the getters of C13 work; ownership of blocks as in C68 |
| C97 | Objects as nodes with the addresses of their texts and the array with its pointers, in a memory of cells (`Evidence/Object.lean`); `map` and `string` are modelled as far as these are concerned | the memory is exactly the cells of the objects, an invariant of every call on any of them; the array's nodes stay in the map |
| C98 | The cache model with every assert, the counts of the tree before and after an eviction and the check of a whole shard (`Cache/Debug.lean`); threads as in C87 | the invariant of C04 to C07 gives the shape of list and tree; the tree has a node for each allocated node whose last load succeeded; threads from the invariant of C87 |
| C99 | The two strings of the engine and the four methods (`Engine/Update.lean`); the receiving end is a separate reader of addresses (query, parameters, form decoding) | induction on the calls for what was last set; the reader splits the address exactly at the separators the code writes when the key has none, and a key cut or decoded comes out shorter or different |
| C100 | The engine, the results objects and the shared pointer's count on top of the threaded resource manager (`Engine/Owners.lean`) | an invariant linking objects, use count and handles held, on top of the invariants of the resource manager; a second one for schedules in which no two refreshes overlap, and a third for those in which no two calls overlap |
| C101 | The asserts about the counters added to the steps of the threaded resource manager and to the calls of the build without threads (`Resource/Debug.lean`) | the invariants of C11 and C92, and that no counter is ever negative; with them each assert holds, so both machines run alike |
| C102 | The threaded tracker of C86 with the red black trees of C01 in the place of its lists, with the asserts of memory.c and tree.c (`Memory/Trees.lean`) | a simulation: the trees hold what the lists hold, from the invariant of C01 per operation and that of C86, which gives that no address is recorded twice and that each block freed has its record |
| C103 | The getters of C13, the list of components of C51 and the override values of C25 with their asserts, which end the run (`Record/Debug.lean`) | from the creation functions: the items in memory fit in its size, whatever the header; induction over the rounds of the loops |
| C104 | Threads whose steps are the calls of the operating system in NewTempFile, FileCopy and DataSetFree, on a shared file system, in any order (`File/Race.lean`); the random string from the seed | the name determines the process id and the string (digits and letters have no dash); an invariant over all steps of all threads |
| C105 | The two functions with the directories as a pointer and an `int` number, and how a call ends in a build with or without asserts (`File/Debug.lean`) | no branch of the functions called gives NOT_SET; induction over the directories |
| C106 | the models of the pool (`Verif.Pool.Model`) and of the resource manager (`Verif.Resource.Model`) at the level of single memory accesses. Exchanges do not fail spuriously (`__sync_val_compare_and_swap` and a strong `__atomic_compare_exchange`, threading.h:327-350 and 426-433); where the double width exchange is a library function with a lock, that lock is not modelled. | a potential: the accesses each thread still needs when nobody else runs, plus what the exchanges it has still to make may cost the other threads. Each access lowers it by one at least, each call raises it by a fixed amount per thread. In Pool/Progress.lean and Resource/Progress.lean. |
| C107 | the search over a bare list of items (`Verif.Search.Model`) and over collections with their files and caches (`Verif.Record.Model`, `Verif.Record.Values`). `probes` (Record/Steps.lean) is the same search with its gets counted and with "not yet over" told from "undefined"; `searchWith_probes` and `searchLoop_with` say that it is the same. | induction on the size of the range: either part of the range beside its middle is at most half of it, also in the branch that moves the lower bound when the middle is 0. In Search/Steps.lean and Record/Steps.lean. |
| C108 | Collection/Nodes.lean: the nodes of the cache have the pointer and sizes of the code instead of the bytes (`Node`), their bytes are blocks of the heap of `Verif.Collection.Model`, and each `Malloc` of `loaderCache` (for the item and for the node) may be refused. The cache itself is that of `Verif.Cache.Model`, the source collection reads from the file. Not modelled: the file handles, `Malloc` of the cache's own memory, threads. | invariant over histories (`Holds`): every node has no memory or a block of its own, allocated since the collection was created and of the size it says; all other blocks are unchanged; a node whose last load succeeded shows the item of that load's key. `load_spec` follows the loader through reuse, replacement and refusal of memory. |
| C109 | Properties/Reload.lean: `initProperties` is `DataSetInitProperties` over the `create` of C27; `reload` passes the names available in the active data set as the request for the replacement, as both reload functions do, and keeps the active data set on failure; `reloads` is a history. The engine's `initDataSet` is taken to hand on the request and to fail only with `DataSetInitProperties`. Memory is never refused here (C76, C77 cover that). | induction over the history with the invariant `Now`: the available names are those of the active version that were requested and that every version active so far had. Stability of the places from uniqueness of a strictly ascending list with given members (`ascending_unique`). |
| C110 | File/Umask.lean: the mask and the threads, each of them before, between or after the two calls of `umask` in `fileOpen`; a list of what was made with its mode. Other parts of the program make files with any mode at any time, directories are made by `FileCreateDirectory`. `open`, `mkdir` and `umask` are those of POSIX; Windows (which does not use `umask`) is not modelled. | invariants over all histories: `Two` (the mask and every saved mask is the original one or 0) and, for calls that do not overlap, `One` (the only call in progress has saved the original mask). |
| C111 | Config/Threads.lean: the threads' loops in steps of one call of `strtok` (that of C41), whose saved position is shared by all of them. A call of `strtok` happens at once, which the C library need not ensure. One query for each configuration: what a query does to the text is the subject of C41. | invariant over histories: `One` (at most one thread is in its loop, and its names are those given to it followed by those of the saved text) when queries do not overlap, `Known` (all names given and to come are in one of the texts) for all histories. |
| C112 | Config/Owner.lean: blocks of memory by number, those in use, and the objects with what they point to; the constructors with each `Malloc` and `strcpy` (which may be refused, or be undefined), the destructor in its order, queries as reads of the blocks, and the implicit copy constructor. | invariant over histories (`Inv`): the blocks in use are a permutation of those of the objects there are, without repetition. |
| C113 | `File/Buffer.lean`: an output stream with the bytes kept, the bytes in the file and the room; `fwrite` passes on as many as an arbitrary policy says (a bound on what is kept), `fclose` the rest, its result ignored as in the code; FileWrite and the copy loop of 8192 bytes on top. | what is in the file and the buffer together is what was written (induction over the loop); comparison of the run with and without a limit. |
| C114 | The threaded cache of C87 with the arithmetic of its creation from C54; items in use are read off the results of the calls (`Cache/Room.lean`) | a get that fails finds every node of its shard held (C06 through the serialisation of C87), so as many items are in use as a shard has nodes; with the numbers of C54 this bounds the size. The violation for every cache with two or more shards is an induction over gets of multiples of the number of shards |

## Where the code does not do what the property says

Each of these is a theorem whose name contains `_violated`, with a concrete witness; a `_partial` theorem proves the rest.

<!-- violations -->
* `C07_collection_violated`: The nodes a failed load used are lost when the cache is used through a collection: `getFromCache` drops the node without a release. With room for two items and every item released before the next, two failed loads leave the cache unusable for ever.
* `C07_counts_violated`: Two threads which hold the locks of different shards and both have a hit can leave the count at one.
* `C08_shard_violated`: For a key hash with low 32 bits `0x80000000` the call of `abs` is undefined; where it gives `INT_MIN` back, the index is negative, before the first shard.
* `C09_aba_violated`: when the 16 bit counter comes round: with thread 1 stopped between its read and its exchange, thread 2 gets and releases 65536 times altogether, after which thread 1 makes an item available that thread 2 has. The next get returns it to thread 3.
* `C100_lost_violated`: When refreshes overlap, a data set may be lost: the engine is deleted, there are no results, the manager is freed, and data set 2 is not. The handle that marks the manager as freed is the third.
* `C100_null_violated`: Processing while the data is refreshed may get NULL for the data set, which is then used.
* `C100_threads_violated`: Deleting results in one thread while another deletes the engine reads the handle after it was freed, though the memory of the manager is shared so that either may be deleted first.
* `C101_null_violated`: does not hold of a manager with nothing to free: the assert of `ResourceManagerFree` reads through the pointer that the next line compares with NULL. Without asserts the call does nothing.
* `C102_before_violated`: for a block that was allocated before tracking was turned on: when it is freed there is no record, which fails the assert of memory.c:168, and without asserts reads NULL.
* `C102_failed_violated`: when memory runs out twice: both times the NULL that was returned is recorded, and the second record under the same key fails the assert of tree.c:281. Without tracking both allocations return NULL.
* `C102_null_violated`: for `Free(NULL)`, which C's `free` permits: whatever was allocated and freed before, there is no record of NULL, which fails the assert of memory.c:168, and without asserts reads NULL. `fiftyoneDegreesEvidenceFree`, evidence.c:71-74, and `fiftyoneDegreesOverridePropertiesFree`, overrides.c:249-252, pass on a NULL, the latter that of `fiftyoneDegreesOverridePropertiesCreate` for no properties to override.
* `C102_record_violated`: when the system has memory for the block and none for its record: the assert of memory.c:114 ends the process, and without it NULL is written to, where without tracking the allocation succeeds.
* `C102_stale_violated`: when tracking is turned off and on again with a block in use that is freed in between: its record stays, and when the system gives the same address again the assert of tree.c:281 fails.
* `C104_emptied_violated`: a thread can find the file of another complete, take it to be its own, and make it empty while the other uses it.
* `C104_older_violated`: in the older function the same happens to different processes, as their number is not in the name.
* `C104_threads_violated`: two threads of one process for which the clock has the same nanoseconds are given the same string. Both find that there is no such file, both take it for theirs, and when the first is done the file of the other is deleted.
* `C105_negative_violated`: is violated by a negative number of directories: nothing is tried, the process ends in a build with asserts, and without them the status is that none has been set.
* `C108_refused_violated`: does not hold as stated: memory for the node is refused once. The get returns nothing and no exception, and the key is in the cache all the same: the next get, with memory, finds it and again returns nothing without an exception.
* `C109_all_violated`: is violated for a request of everything: a property added by a newer version is not available.
* `C109_request_violated`: `IsMobile` was asked for by name and is in the active data, but is not available because a version in between lacked it.
* `C10_lost_violated`: in the same way: an item is lost, so that with no call in progress and nothing held, only two of the three items can be got.
* `C110_during_violated`: a file that another thread makes during a call has permissions the mask should take.
* `C110_lost_violated`: two calls overlap. Both return, and the process is left with no mask: a file the program then makes for its user only by mask (here mask 0077) can be read and written by everyone.
* `C110_mode_violated`: when calls overlap, a file made for everyone may be made with the mask of the process.
* `C111_contains_violated`: a configuration for `A,B` is said to contain `D`, and another one for `C,D` not to.
* `C111_names_violated`: two threads list the properties of their own configurations `A,B` and `C,D`. One is given `A` and `D`, the other only `C`.
* `C112_copy_violated`: is violated for every text: a configuration and its copy have the same block, so when both are destroyed it is freed twice, and when one is destroyed a query of the other reads freed memory.
* `C112_refused_violated`: without memory the constructors write to NULL.
* `C113_copy_violated`: the same for copies.
* `C113_write_violated`: is violated for every way of buffering, and everything written of which some bytes stay in the buffer: if there is only room for the others, success is reported and the file is not complete.
* `C114_size_violated`: does not hold as stated: in every cache with two or more shards, of whatever size, a get fails with fewer items in use than the size. The keys are the multiples of the number of shards, which are all in the first shard.
* `C11_null_violated`: even when freed memory keeps its contents, two replacements during a get can make it return NULL, which `fiftyoneDegreesDataSetGet` and `fiftyoneDegreesResourceReplace` use without a check.
* `C11_releaseRead_violated`: between the decrement to zero and the read of `handle->manager->active`, resource.c:234-235, another thread may replace and free the handle, so that the release reads freed memory.
* `C11_useAfterFree_violated`: between the read of `manager->active` and the read of the counter in it, resource.c:279, another thread may replace and free the handle, so that freed memory is read.
* `C12_lost_violated`: of two replacements at the same time one may be lost: its handle never becomes active, although the call returns, and its resource is never freed.
* `C13_dangling_violated`: When a read fails, the item keeps the pointer to the freed memory, and its next use writes there. The file is one byte short.
* `C13_full_violated`: When all nodes of the cache are held, a get of another item returns NULL, and no exception.
* `C13_reuse_violated`: An item used with a cached collection and released still refers to the node's memory: its next use with a collection in the file writes there.
* `C13_short_violated`: if the size of an item of variable size comes out smaller than the part that is read first, then the part read first is written outside of the memory allocated for the item.
* `C13_stale_violated`: If the collection is also partly loaded and the item was used before, then such a get of item 2 succeeds with the pointer to item 0.
* `C14_null_violated`: when the collection returns NULL without an exception, as it does when its cache is full: the search of three items which are all smaller returns index 0 and no exception.
* `C14_violated`: when the upper index is the largest `uint32_t` (as for an empty collection searched up to `count - 1`): a search of the single item 2^32-1, smaller than what is sought, goes on to item 2^31-1.
* `C15_violated`: for an image that ends inside a header: the header is read past the end of the image.
* `C15_wrap_violated`: for a count whose items take 4 GiB or more: the length wraps, the header of 2^30 items of 4 bytes is accepted in an image of 4 bytes, and every one of the items is handed out at the end of the image.
* `C17_empty_violated`: for the empty needle too: it occurs at the start of every text, and NULL is returned.
* `C17_violated`: a needle whose beginning matches the end of the haystack is reported as found. `"Set"` is reported to contain `"SetHeader"`.
* `C18_special_violated`: the signs of negative zero and negative infinity are lost, and the encoding IEEE 754 has for infinity is read as NaN, float.c:54-67.
* `C18_subnormal_violated`: no subnormal value below 2^-127 comes back: it is stored as its significand and the exponent is lost, float.c:98-107.
* `C22_violated`: a data set header with one segment and a separator needs two entries, but only one is allocated, so the second is written past the end of the array.
* `C23_violated`: `HTTP_X` is not recognised as the header `X` although `HTTP_XY` is recognised as `XY`, because the length is compared with `sizeof("HTTP_")`, which counts the terminator.
* `C24_capacity_violated`: a data set with the header names `"A\x1F"` and `"A"` gives headers for which the pseudo header count is 0, so an evidence array sized by it is read out of bounds.
* `C24_truncation_violated`: evidence is constructed although the second segment has no value, when the value of the first one fills the buffer.
* `C25_size_violated`: for a longer value: the size stored with it is negative.
* `C25_violated`: in a full array: the second value for property 0 is dropped.
* `C28_violated`: for names with characters beyond ASCII: `qsort` orders them after the letters and the search expects them before, so a name that is available is not found.
* `C29_overrun_violated`: whenever the last value of the profile belongs to the property and nothing can be read after it, if the callback does not stop before.
* `C29_violated`: when nothing can be read after the profile: with the property's values last in the profile, the word after the profile is read.
* `C30_violated`: for a data set without profiles, and when a record cannot be fetched: instead of an exception, NULL is dereferenced.
* `C31_groups_violated`: for groups that are not hexadecimal numbers below 65536: `123456` is read as 3456, `g` as 0, `-1` as 0 and the text, of three groups, is not invalid.
* `C31_malformed_violated`: for texts that are not addresses: they are accepted, and the address is not invalid.
* `C31_uninitialised_violated`: also fails for a text with fewer parts: three bytes of the four are written, the last one is not initialised, though the address is reported as IPv4.
* `C31_violated`: for texts with more parts than the type holds: an IPv4 address with a port, as a proxy may put in X-Forwarded-For, and an IPv6 text with two abbreviations, are written outside the bytes allocated.
* `C33_crlf_violated`: when `\r` and `\n` of one line end are in different reads, an empty line is delivered between the lines, and counts against the limit.
* `C33_empty_violated`: for an empty file the byte before the buffer is read, textfile.c:81.
* `C33_lost_violated`: when the last full read ends exactly at the end of the file, and the file ends with a line end, the lines still in the buffer are not delivered, textfile.c:95.
* `C34_failed_violated`: when memory runs out: the failed allocation (returning NULL) is counted although there is no block.
* `C34_violated`: for a block of 4 GiB: after freeing it, it is still counted.
* `C37_reloadRead_violated`: the reload functions read the active data set without counting as its user, dataset.c:273-274, 315-316, so that with another reload at the same time they read a freed one.
* `C40_violated`: for the index equal to the count: instead of an exception, a pointer past the component is returned; reading it is undefined at the end of the image, and reads the next component's bytes otherwise.
* `C41_again_violated`: a query changes the text for all later ones (and for the engine the configuration is for): asked twice, the list is not the same, and a name in it is not contained.
* `C41_count_violated`: the count is the number of commas, not of names.
* `C42_malformed_violated`: for a text the address parser is undefined for (C31).
* `C42_memory_violated`: when there is no memory to parse the address sought: the first value looked at is returned.
* `C42_name_violated`: when the name of a value is NULL without an exception, as it is when the cache of the strings is full (`C13_full_violated`): the value is returned whatever its name is.
* `C43_baseName_slash_violated`: the base name of every path with a slash is NULL.
* `C43_baseName_violated`: the base name of a path with a slash is NULL, and so is that of a plain name; only backslashes are handled.
* `C43_create_violated`: a directory of 4096 characters or more is written outside of the memory for the path, file.c:890.
* `C43_fileName_violated`: without a slash the first character is dropped; an empty path makes the result point outside of the string.
* `C43_order_violated`: with two usable directories the second is used, not the first, and an unknown copy remains in the first.
* `C43_overflow_violated`: for a directory whose length with the slash is that of the memory, the name is written outside of the memory, file.c:829-835.
* `C43_random_violated`: when no further random string can be had after a name that is used, an error is reported but the destination keeps the name of the file which is not a temporary file of this process, file.c:744-746.
* `C43_stem_violated`: no name is found for a file without extension in a directory with a dot.
* `C43_temp_violated`: the first directory is usable and the second is not. The call fails and gives no path, although the copy has been made in the first (where it remains), file.c:812-847.
* `C43_truncated_violated`: a name as long as the memory loses its last character, and no lack of memory is reported, file.c:757-767.
* `C44_violated`: for 5 bytes aligned to 4: 6 bytes are asked for, which `aligned_alloc` need not accept.
* `C45_message_violated`: for a null profile (and for no matched nodes) the engine's message is dropped, Value.hpp:149-150.
* `C45_overflow_violated`: a value that starts with an integer that is not an `int` makes `atoi` undefined, ResultsBase.cpp:172.
* `C46_violated`: for a name of one character: the prefix is not removed.
* `C48_violated`: for a property called `Set`: set headers are reported as available.
* `C49_overrun_violated`: whenever nothing can be read after a profile which does not have the value and whose last value belongs to the property.
* `C49_violated`: when nothing can be read after a profile whose last value belongs to the property.
* `C51_endless_violated`: when the cache of the components has fewer nodes than there are components: with one node, filling a list with the two components never ends, and does not report anything.
* `C52_violated`: for the usual form with a comma and a space: a third address, of invalid type and with no byte initialised, appears between the two.
* `C53_violated`: for every list with an address in it: the pointer given to `free` is not the one `malloc` returned.
* `C54_capacity_violated`: With a capacity of 2^31 and two shards, the shards believe to have three times as many nodes as there are.
* `C55_wraps_violated`: A pool for 65535 concurrent users is not initialised: the item count wraps to zero.
* `C56_read_violated`: a read error ends the copy early, but success is reported, file.c:154-163.
* `C56_seek_violated`: when the source cannot be positioned nothing is copied, but success is reported, file.c:152.
* `C56_self_violated`: copying a file to itself makes it empty.
* `C57_directory_violated`: and C58 fail for a directory whose name does not fit in the array with its terminator: `strcpy` writes after it, file.c:358.
* `C57_empty_violated`: for an empty master file any file is taken for a copy.
* `C57_entry_violated`: and C58 fail for a directory that has, as its first entry, one whose path does not fit in the array: it is written after it, file.c:421. The entry need not be a copy of the master file.
* `C57_missed_violated`: there is a copy in the second directory and it is not found, as the first one is searched twice.
* `C57_overflow_violated`: for every file of more than 1024 bytes, asking for a comparison of more than 1024 bytes writes outside of the buffers, file.c:285-290.
* `C57_working_violated`: and C58 fail without directories: those of the working directory are to be looked at, but the directory opened is the one with the empty name, which there is not (POSIX has `opendir` fail for it, so nothing is listed). No copy is found and none is deleted.
* `C58_backup_violated`: a backup which the user made of the master file is deleted, and so is another file that has the compared bytes and the length in common with it.
* `C58_count_violated`: The number of deleted files is kept in one byte: of `n` deleted files `n % 256` are reported.
* `C58_missed_violated`: the copy in the second directory is not deleted.
* `C59_deep_violated`: in a directory deep enough for the path of the file in it not to fit in the array: the lack of memory is reported at once, whatever room the caller gave, and the file is not looked for in the directories above, where its path may fit.
* `C59_root_violated`: the file is in the root directory, in which the current directory is, and is not found.
* `C60_blank_violated`: for a file that starts with an empty line: the callback is given a document that is not in the file.
* `C60_cut_violated`: for a text that does not fit: it is cut and no error is reported (yamlfile.h:61-64 promises an error).
* `C60_dot_violated`: for a key that starts with a dot, which yamlfile.h:45 allows: the dot is lost.
* `C60_empty_violated`: for an empty file: the callback is given a document with one pair whose value buffer has not been written.
* `C60_full_violated`: for a document with as many pairs as the array has: the pair after the last one is read.
* `C60_quote_violated`: for a value that is a single quote: the byte before the value buffer is read.
* `C60_stale_violated`: for a line without a separator: the callback is given the value of another document.
* `C60_start_violated`: for a pair on the line of the dashes: the pair before the first one is read.
* `C61_zero_violated`: for a limit of zero: one document is passed to the callback.
* `C62_header_violated`: for a header with a name of one character where `HTTP_` prefixes are used: the advertised key leads to no header.
* `C62_override_violated`: for a property with a name of one character where the `51D_` prefix is used.
* `C64_copy_violated`: for the copy: whatever the size of the buffer, nothing of an IPv4 address is copied to it, and only the first byte of an IPv6 address.
* `C64_uninitialised_violated`: for the unused part of an IPv4 object: its last twelve bytes are not initialised.
* `C65_leak_violated`: for directories set more than once: of `n` arrays the destructor frees one, for every `n`.
* `C66_clear_violated`: for an exception that is clear, or was set by hand without a file: its text is undefined, as NULL is given for a string.
* `C66_fatal_violated`: for the exceptions thrown when a C exception is set: whatever its status, the code of the one thrown is never initialised.
* `C67_violated`: for names with other bytes: results may list a property and yet not contain it.
* `C68_leak_violated`: A cache that is too small for the concurrency: the collection in the file made for it is left in use, though the result is NULL.
* `C68_noMemory_memory_violated`: The same when reading from memory.
* `C68_noMemory_violated`: Memory for the structure cannot be had: NULL is dereferenced.
* `C68_seek_violated`: The first seek fails, and items are to be loaded: NULL is dereferenced, though all memory can be had.
* `C69_reuse_violated`: After a read that failed, the item's data still has the address of the memory freed: the next read into it writes there.
* `C69_stale_fixed_violated`: The same for an item of fixed size.
* `C69_stale_violated`: With an exception already set when called, the handle taken is not put back, though there is no item.
* `C70_backup_violated`: a backup of the data file, made by the user in the directory for temporary files, is taken for a temporary file and deleted when the data set is freed.
* `C70_left_violated`: with two directories a copy of the data file is left in the first one for ever.
* `C70_random_violated`: when no second random name can be had, the data set is left with the name of a file that is not its own, which is deleted when it is freed.
* `C70_reset_violated`: a data set that was only reset cannot be freed, as its configuration is read, dataset.c:98.
* `C70_shared_violated`: of two data sets that reuse one temporary file, the first one freed deletes the file of the other, dataset.c:98-100.
* `C71_empty_violated`: an empty file that can be read is reported as a failure, file.c:1066.
* `C71_pool_violated`: for a file that cannot be positioned, a length of -1 is set and success reported, file.c:81-86, 977.
* `C71_tracking_violated`: whenever the read fails, the memory that was given back is still counted as allocated, as it is not given back by way of tracking, file.c:1070.
* `C71_write_empty_violated`: writing nothing makes the file empty, as asked, but is reported as a failure, file.c:587.
* `C71_write_left_violated`: when there is not enough room a part of the data is left in the file, and what was there before is lost.
* `C72_profile_violated`: for a profile which says that it has 2^30 values: only the 9 bytes of its header are read, and there is no exception, so that its first value is read outside of the memory.
* `C72_string_violated`: for a string with the length −1 or −2 in the file: the two bytes of the length are written to memory of one byte or none.
* `C73_wrong_violated`: when somebody holds the only node of the cache, here with the offset of index 1: the search for the profile 12 compares that one, cannot get index 2, and returns 0 without an exception. The item still refers to the offset compared before, so that the offset of the profile 7 is returned as that of the profile 12, and also as that of the profile 9, which does not exist.
* `C75_free_violated`: when the offsets are in the file and the profiles are cached: the memory of the cache is freed.
* `C75_leak_violated`: when the offsets are in memory and the profiles in the file: the memory of the profiles is never freed.
* `C75_overrun_violated`: for a profile in the file whose last value is one of the property and which does not have the value: the word after its memory is read.
* `C75_release_violated`: when the offsets are cached and the profiles are in the file: the memory of the profile is taken for a node of the cache.
* `C75_skipped_violated`: when the offsets are in memory and the profiles are cached: nothing is released, and when all nodes are held the other profiles are left out, without an exception. With one node the callback is not called for the profile 12; with three it is.
* `C75_uninitialised_violated`: when the profiles are in memory and the offsets are in the file, or cached: the handle of the profile's item was never set, and what is there is freed, or taken for a node of the cache. With a handle that happens to be NULL all is well.
* `C76_collection_violated`: does not hold for a source whose strings are not of a collection: `getPropertyIndex` and the counting look whether there is one, `PropertiesFree` does not and calls through NULL.
* `C76_overflow_violated`: does not hold for failing reads: if a read fails while the matches are counted and succeeds when they are added, more properties are added than there is room for, and the write is out of bounds.
* `C77_fewer_violated`: does not hold for failing reads: with a read that fails while properties are counted the status is success though properties that were asked for are missing.
* `C77_index_violated`: does not hold for failing reads: with a read that fails when the indexes are found again the status is success though an available property has the index -1.
* `C77_memory_violated`: does not hold when there is no memory for the list: the status says that a property is not present.
* `C77_name_violated`: does not hold for failing reads: the check for names that could not be read comes after the names have been compared, so with two properties or more the status is never returned.
* `C77_two_violated`: does not hold for failing reads: two properties are enough for it, and a name that could not be read is noticed only when the property is the only one.
* `C78_leak_violated`: does not hold without memory for a header of the data set: the item with its name stays held for ever, headers.c:280, and without memory for its segments so does the copy of its name, headers.c:191-203.
* `C78_overflow_violated`: does not hold for failing reads: if a read fails while the segments are counted and succeeds when the headers are added, they are written outside of the array.
* `C78_status_violated`: does not hold for the status without memory: it says that the data is corrupt.
* `C79_alloc_violated`: when there is no memory for the text of the first value added, the copy writes through NULL.
* `C79_pointer_violated`: for pointers already given out: when a longer value is added for the property its buffer is freed and the pointer dangles.
* `C80_free_violated`: when the properties are in the file and the strings are cached: the memory of the cache is freed.
* `C80_leak_violated`: when the properties are in memory and the strings in the file: the memory of a name is never freed.
* `C80_release_violated`: when the properties are cached and the strings are in the file: the memory of the name is taken for a node of the cache.
* `C80_uninitialised_violated`: when the strings are in memory and the properties are in the file, or cached: the handle of the name's item was never set, and what is there is freed, or taken for a node of the cache. With a handle that happens to be NULL all is well.
* `C80_wrong_violated`: when the properties are in memory and the strings are cached: no name is ever released, and when all nodes are held there is no next name, without an exception, and the property is returned whatever its name. With one node the property "cd" is returned for the name "ef", and for a name which no property has; with three nodes the right one is.
* `C81_empty_violated`: for a property without values, whose first index is above its last, unless the values are in memory: nothing is ever got, and the item that is released is not initialised.
* `C81_full_violated`: when all nodes of the cache of the strings are held by others: there is no name, no exception, and the first value looked at is taken for the one sought, whatever its name.
* `C81_held_violated`: when the name of a value is not in the strings: there is an exception, and the memory of the value is never freed, since the item is released only if there was none.
* `C82_format_violated`: for a string that is a coordinate without zero bytes: it is copied as a text, past the end of its memory.
* `C82_full_violated`: when all nodes of the cache are held by others: the text is empty, and there is no exception.
* `C82_null_violated`: for the item of a get that failed: the pointer to the string is NULL and is followed.
* `C83_empty_violated`: for a property without values, whatever value is sought, unless the values are in memory: an item that was never initialised is released.
* `C83_missed_violated`: when all nodes of the cache of the profiles are held by others: there is no exception, and no profile is reported.
* `C83_uninitialised_violated`: when the strings are in memory and the properties cached, or the profiles in memory and the offsets in the file: an item whose handle was never set is released.
* `C83_wrong_violated`: when the properties are in memory and the strings are cached: with one node the name "P" is never released, the property "Q" is taken for one which is not there, its first value looked at for the one sought, and the callback is called for all the profiles which have it.
* `C84_overrun_violated`: when the last value of the profile is one of the property and nothing can be read after it.
* `C84_skipped_violated`: when the cache has fewer free nodes than there are values: those for which there is none are left out, without an exception. With one node the value 2 is missing.
* `C85_deleted_violated`: with C58, counterexample: asked for by a relative directory, the file in use is deleted.
* `C85_long_violated`: when a descriptor met on the way is for a path that fills the array: the terminator is written after it.
* `C85_null_violated`: for every file, where `closedir` does not accept NULL, when the first entry of `/proc` is not a process.
* `C85_relative_violated`: the file in use is not said to be when it is asked for, from the directory `/home/me`, by the path `./tmp/m-1-A`, or through another name of a directory.
* `C85_suffix_violated`: a file that nobody has open is said to be in use, since its path is the end of that of another file.
* `C86_init_violated`: two threads make the first two calls, both find that the tracker is not initialised, and the block of the first is no longer counted after the second has reset the totals; when it is freed, the total passes below zero.
* `C86_reset_violated`: tracking is turned on while a block is in use, which is freed afterwards.
* `C86_stale_violated`: a block is allocated with tracking and freed without, so that its record stays; with tracking on again the system gives the same address for a block of another size, which is freed as one of the old size.
* `C87_counts_violated`: the counts lose updates when the cache has more than one shard, since each is protected by the lock of one shard only: two threads miss at the same time in two shards and the count says one.
* `C90_config_violated`: a data set without a configuration cannot be freed, though all its parts can, and its headers cannot be initialised.
* `C90_lost_violated`: when there is no memory for the segments of a header, the item with its name is never given back by the data set, nor is the copy of the name.
* `C90_twice_violated`: when the properties of a data set are initialised twice, those from the first time are never given back, as are headers, files and memory.
* `C91_null_violated`: two reloads during the get of a data set, and the request is given NULL instead of a handle, which `fiftyoneDegreesDataSetGet` dereferences.
* `C94_dangling_violated`: when a value cannot be read from the file, looking up a value by name returns a pointer to memory that has been freed, and with a structure NULL.
* `C94_endless_violated`: for the list of the components, for every file and state: once the offset is past the end of the components, filling the list never ends.
* `C94_memory_violated`: for a collection in memory, or the loaded part of one: getting a key outside of it without an exception structure is undefined, since the status is read through the pointer.
* `C94_offset_violated`: for the look-up of an offset in a file, with NULL and with a structure alike: no failed get of an offset is ever reported. When the middle one cannot be got, then the offset of profile 0 is read from NULL or from memory that was freed; and of the calls that return, none has an exception other than that for the id 0.
* `C94_remembered_violated`: for a cached collection: when a read fails and there is no exception structure, then the failure is put in the cache, and the item is NULL for everybody, without an exception, although it could be read now. With a structure it is read again.
* `C94_rest_violated`: for an item that is not in the loaded part and cannot be read from the file, because that is too short: the pointer returned is not NULL, but to memory that has been freed, and without an exception structure there is no sign of it.
* `C94_wrong_violated`: the value, and the property, whose name could not be read is taken for the one sought, whatever its name; with a structure there is an exception.
* `C95_handles_violated`: when the offsets are in the file: after a failure with the offset of index `i + k`, every further offset costs a file handle, which is never free again; and when there are none left, then the exception reported is not that of the failure.
* `C95_nodes_violated`: when the offsets are cached: after the failure the node of the cache, its only one, is held for ever, and no offset can be got any more, though there is no exception. With two nodes one is left. When nothing fails none is lost.
* `C96_counted_violated`: A seek or a read fails: the memory is given back with `free` and the tracker goes on counting it, for ever.
* `C96_noMemory_violated`: The memory for the structures cannot be had: NULL is dereferenced.
* `C96_over_violated`: An item that does not end within the collection, as in a file that is not well formed: read from the file it is shown with all its bytes; here the pointer is to memory that ends before it does, and no exception is set.
* `C97_assign_violated`: A value that is in the array is assigned to, and its text is moved: the array stays that of the object, with a pointer to memory that has been given back.
* `C97_copy_violated`: A copy of an object that has an array has the same array: when both are destroyed it is freed twice.
* `C97_tracking_violated`: With memory tracking, erasing from an object that has no array dereferences NULL.
* `C98_failedLoad_violated`: does not hold as stated: with `FIFTYONE_DEGREES_CACHE_VALIDATE` a load that failed ends the process when its node, given back, is used again.
* `C98_noMemory_violated`: does not hold as stated: when there is not enough memory the assert of cache.c:361 ends the process, where a build without asserts returns NULL as documented.
* `C98_race_violated`: does not hold as stated: the assert at the end of get reads the count without the lock. Thread 0 was given the node and makes its assert, and the next step of thread 1, which has the lock, writes the count: a data race, undefined in C.
* `C99_decoded_violated`: A key with a `+` is read with a space, and one with a `%` and two digits with another byte, so that two different keys ask for the same data.
* `C99_injected_violated`: A key is not encoded: one with a `&` sets the parameters after it, and the server reads another key and two products.
* `C99_zero_violated`: A key that begins with a zero byte enables updates with an address that has no key.
<!-- end -->

## How the theorems were tested

Wrong programs were made by editing the definitions in a copy of the model: by hand, as a realistic bug would, and
systematically (each constant, comparison, connective and branch of a definition changed in turn). Each was rebuilt. When
all theorems still held and the edit made a claim false, a theorem was tightened in this repository. `seeded/LOG.jsonl` has
one line for each attempt by hand. Besides, edits were generated from the models (a comparison changed, a condition negated, a
constant moved, branches swapped, an update dropped). Their lines say `generated edit`. For these the claim named is
that of the theorems that failed, and that a theorem failed means only that its proof no longer went through; not every one
was examined to see that its statement had become false. Generated edits that did not compile are not in the log.
Edits after which every theorem still held are in it too, with no theorem named as failed. Where the edit was examined and breaks
no claim, the line begins with `none:` and says why (a branch that is not reached, a value that is set again before it is read).
Where a generated edit was not examined, the line says `survived, not examined`: whether some property ought to have noticed it
is then open. After most edits only the modules of the directory of the edited definition were rebuilt, not those that import
it from other directories. So the theorems named as failed may not be all, and an edit that survived may be noticed elsewhere: a
change of `Component.toInt32` survived in `Component`, but `Record/Props.lean` does not build with it. A line that begins with `none:` and names theorems is one whose proofs failed although the claims remain true.

## Not modelled

SWIG wrappers and the language bindings, getters and setters that only read or assign a field, the platform layers behind
`fopen`/`fread`/`pthread` (they appear as parameters with every result the C library allows), the Windows branches of
`#ifdef`s, memory-model effects weaker than sequential consistency, hash functions of `std` containers, assertions
(`NDEBUG` is assumed; the checks of `cacheValidateShard` and the like are not compiled in), and the programs under
`tests` and `performance`.

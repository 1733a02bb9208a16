{"id": "C01", "title": "Tree lookup agrees with a map after any history of inserts and deletes", "statement": "After any sequence of inserting nodes with distinct keys into, and deleting member nodes from, an initially empty tree, looking up a key returns the node last inserted under that key and not since deleted, and returns NULL when there is no such node; the tree count equals the number of member nodes.", "quantifier": "every finite sequence of insert (fresh key) / delete (member) operations and every 64-bit search key", "why_tests_cant": "the red-black repair code has dozens of shape-dependent branches; a unit test covers a handful of insertion orders, not every history", "anchors": ["tree.c:fiftyoneDegreesTreeInsert", "tree.c:fiftyoneDegreesTreeDelete", "tree.c:fiftyoneDegreesTreeFind", "tree.c:insertRepair", "tree.c:deleteRepair", "tree.c:rotateLeft", "tree.c:rotateRight", "tree.c:successor", "tree.c:fiftyoneDegreesTreeCount"]}
{"id": "C02", "title": "Tree stays balanced", "statement": "After any sequence of inserts and deletes the longest path from the root to a leaf is at most 2*log2(n+1), where n is the number of nodes, so a lookup visits at most that many nodes.", "quantifier": "every finite sequence of insert/delete operations", "why_tests_cant": "balance after an arbitrary history is a global invariant; a test samples a few orders", "anchors": ["tree.c:insertRepair", "tree.c:deleteRepair", "tree.c:fiftyoneDegreesTreeFind"]}
{"id": "C03", "title": "Tree iteration visits every member exactly once", "statement": "Iterating a tree calls the callback exactly once for every member node and for nothing else.", "quantifier": "every tree reachable by inserts and deletes", "why_tests_cant": "needs all tree shapes", "anchors": ["tree.c:iterate", "tree.c:fiftyoneDegreesTreeIterateNodes"]}
{"id": "C04", "title": "Cache gets never return another key's data", "statement": "A successful cache get for key k returns a node holding the bytes the loader produced for k, whatever gets, releases and evictions happened before it.", "quantifier": "every history of get/release calls over one shard, every key, every loader", "why_tests_cant": "evictions reuse nodes, so a stale tree entry would only show up for particular histories", "anchors": ["cache.c:fiftyoneDegreesCacheGet", "cache.c:fiftyoneDegreesCacheRelease", "cache.c:cacheLoad", "cache.c:cacheGetNextFree"]}
{"id": "C05", "title": "An item in use is never evicted or overwritten", "statement": "Between the cache get that returns a node and the matching release, the node keeps its key and data, even if every other entry is evicted.", "quantifier": "every history of get/release calls; every outstanding handle", "why_tests_cant": "corruption needs a particular interleaving of gets and releases while the cache is full", "anchors": ["cache.c:cacheGetNextFree", "cache.c:cacheRemoveFromList", "cache.c:fiftyoneDegreesCacheRelease"]}
{"id": "C06", "title": "Cache evicts the least recently used free item and fails only when all are in use", "statement": "When a key is missing and the shard is full, the node reused is the one whose last release is the oldest among nodes not in use; get returns NULL only if every node of the shard is in use.", "quantifier": "every history of get/release calls on a shard, with loads that succeed or fail", "why_tests_cant": "recency order depends on the complete history", "anchors": ["cache.c:cacheAddToHead", "cache.c:cacheGetNextFree", "cache.c:fiftyoneDegreesCacheGet", "cache.c:fiftyoneDegreesCacheRelease"]}
{"id": "C07", "title": "Cache never loses capacity and counts hits and misses exactly", "statement": "At every point each node of a shard is in exactly one of these states: never allocated, in the shard's free list, or in use by a caller; so capacity never leaks, including when a load raises an exception. Hits plus misses equals the number of gets that returned or tried to load.", "quantifier": "every history of get/release calls, including loads that fail", "why_tests_cant": "a leak of one node per failed load only shows after as many failures as the capacity", "anchors": ["cache.c:cacheGetNextFree", "cache.c:cacheLoad", "cache.c:fiftyoneDegreesCacheGet", "cache.c:fiftyoneDegreesCacheRelease", "collection.c:getFromCache"]}
{"id": "C08", "title": "Cache shard choice is always a valid shard", "statement": "For every 64-bit key the shard chosen by a cache get is one of the `concurrency` shards of the cache.", "quantifier": "every 64-bit key and every concurrency from 1 to 65535", "why_tests_cant": "the failing hash values are one in 2^32", "anchors": ["cache.c:fiftyoneDegreesCacheGet", "cache.c:fiftyoneDegreesCacheCreate"]}
{"id": "C09", "title": "A pooled handle is never given to two holders", "statement": "At no point do two callers hold the same pooled resource, for any number of threads and any interleaving of gets and releases.", "quantifier": "every number of threads, pool size and schedule of atomic steps", "why_tests_cant": "lock-free stack: ABA and lost-update bugs only appear on particular schedules", "anchors": ["pool.c:fiftyoneDegreesPoolItemGet", "pool.c:fiftyoneDegreesPoolItemRelease", "pool.c:fiftyoneDegreesPoolInit", "pool.h:fiftyoneDegreesPoolHead"]}
{"id": "C10", "title": "Pool conserves its handles", "statement": "Whenever no call is in progress, every handle of the pool is either available or held, so a get reports INSUFFICIENT_HANDLES only at an instant when all handles were taken, and after all releases all handles are available again.", "quantifier": "every number of threads, pool size and schedule", "why_tests_cant": "lost handles only appear on particular schedules", "anchors": ["pool.c:fiftyoneDegreesPoolItemGet", "pool.c:fiftyoneDegreesPoolItemRelease"]}
{"id": "C11", "title": "A shared resource is never freed while someone uses it and never twice", "statement": "A resource obtained from the resource manager is not freed before the caller releases it, whatever replacements, gets and releases other threads perform, and no resource is freed more than once.", "quantifier": "every number of threads and every schedule of the atomic steps of get, release, replace and free", "why_tests_cant": "lock-free reference counting: violations only on particular schedules", "anchors": ["resource.c:fiftyoneDegreesResourceHandleIncUse", "resource.c:fiftyoneDegreesResourceHandleDecUse", "resource.c:fiftyoneDegreesResourceReplace", "resource.c:fiftyoneDegreesResourceManagerFree"]}
{"id": "C12", "title": "A replaced resource is freed once the last user releases it", "statement": "After a resource has been replaced and every user released it, it has been freed; and a resource installed by a completed replace becomes the one returned by later gets.", "quantifier": "every number of threads and every schedule, at points where no call is in progress", "why_tests_cant": "needs all schedules of replace against release", "anchors": ["resource.c:fiftyoneDegreesResourceReplace", "resource.c:fiftyoneDegreesResourceHandleDecUse"]}
{"id": "C13", "title": "Every storage strategy returns the same item", "statement": "For the same data file region, an in-memory, on-file, partially loaded, cached, or partially loaded and cached collection returns the same bytes for the same index or offset, and all report an error for one outside the collection.", "quantifier": "every data file, header, element size, load/cache configuration and index, and every history of earlier accesses for the cached ones", "why_tests_cant": "four implementations times all boundary offsets and access histories", "anchors": ["collection.c:getMemoryFixed", "collection.c:getMemoryVariable", "collection.c:getFile", "collection.c:getPartialFixed", "collection.c:getPartialVariable", "collection.c:getFromCache", "collection.c:fiftyoneDegreesCollectionReadFileFixed", "collection.c:fiftyoneDegreesCollectionReadFileVariable"]}
{"id": "C14", "title": "Binary search finds an item exactly when it is there", "statement": "For a collection ordered by the comparer, the binary search between lower and upper index returns an index whose item compares equal if there is one in that range, and -1 otherwise, without touching items outside the range.", "quantifier": "every ordered collection, every range and every key", "why_tests_cant": "off-by-one errors at range ends depend on length and position", "anchors": ["collection.c:fiftyoneDegreesCollectionBinarySearch"]}
{"id": "C15", "title": "Reading collections out of a memory image never passes its end", "statement": "A memory reader only hands out areas that lie inside the image; a length that runs past the end is reported, and consecutive areas do not overlap.", "quantifier": "every image length and every sequence of headers/advances", "why_tests_cant": "corrupt data files are arbitrary", "anchors": ["memory.c:fiftyoneDegreesMemoryAdvance", "collection.c:fiftyoneDegreesCollectionHeaderFromMemory", "collection.c:fiftyoneDegreesCollectionCreateFromMemory"]}
{"id": "C16", "title": "Case-insensitive comparison decides equality and is an ordering", "statement": "The string comparisons return 0 exactly when the strings (or their first n bytes) are equal up to ASCII case, the sign is antisymmetric and transitive.", "quantifier": "all pairs and triples of strings and lengths", "why_tests_cant": "infinite domain", "anchors": ["string.c:fiftyoneDegreesStringCompare", "string.c:fiftyoneDegreesStringCompareLength"]}
{"id": "C17", "title": "Substring search returns a real occurrence and the first one", "statement": "The substring search returns NULL exactly when the needle does not occur (ignoring case) and otherwise the first occurrence.", "quantifier": "all pairs of strings", "why_tests_cant": "infinite domain; failures only when a partial match runs off the end of the haystack", "anchors": ["string.c:fiftyoneDegreesStringSubString", "properties.c:fiftyoneDegreesPropertiesIsSetHeaderAvailable"]}
{"id": "C18", "title": "Stored float survives conversion", "statement": "Converting a native single precision value to the stored form and back gives the same bit pattern, and equal stored values are exactly those the equality function reports equal.", "quantifier": "all 2^32 bit patterns", "why_tests_cant": "4 billion values with special cases for zeros, infinities, NaNs and subnormals", "anchors": ["float.c:fiftyoneDegreesFloatToNative", "float.c:fiftyoneDegreesNativeToFloat", "float.c:fiftyoneDegreesFloatIsEqual"]}
{"id": "C19", "title": "Evidence iteration visits exactly the matching pairs in order", "statement": "Iterating evidence with a prefix mask calls the callback for every pair (evidence first, then pseudo evidence) whose prefix is in the mask, in the order added, until the callback returns false, and returns the number of pairs visited.", "quantifier": "every evidence array, chain and mask, every callback", "why_tests_cant": "unbounded arrays and arbitrary callbacks", "anchors": ["evidence.c:evidenceIterateSub", "evidence.c:fiftyoneDegreesEvidenceIterate", "evidence.c:fiftyoneDegreesEvidenceAddString"]}
{"id": "C20", "title": "Evidence never exceeds its capacity and keeps what was added", "statement": "Adding evidence beyond the capacity is refused without changing the stored pairs; otherwise the pair is appended with the value and prefix given.", "quantifier": "every capacity and sequence of adds", "why_tests_cant": "histories of arbitrary length", "anchors": ["evidence.c:fiftyoneDegreesEvidenceCreate", "evidence.c:fiftyoneDegreesEvidenceAddString"]}
{"id": "C21", "title": "Evidence key prefix mapping", "statement": "A key maps to a prefix exactly when it starts with that prefix's string and is longer than it; no two prefixes can both match; other keys map to nothing. The prefix string of a mapped key is the key's own beginning.", "quantifier": "every key", "why_tests_cant": "infinite domain", "anchors": ["evidence.c:fiftyoneDegreesEvidenceMapPrefix", "evidence.c:fiftyoneDegreesEvidencePrefixString"]}
{"id": "C22", "title": "Header list holds each required header once", "statement": "The headers built from a data set hold every distinct header name exactly once (ignoring case), plus, when pseudo headers are expected, one entry per distinct segment, with each pseudo header's segments being the split of its name; nothing else.", "quantifier": "every list of header names in the data set", "why_tests_cant": "arbitrary lists with duplicates, prefixes and separators in all positions", "anchors": ["headers.c:fiftyoneDegreesHeadersCreate", "headers.c:createSegmentArray", "headers.c:countAllSegments", "headers.c:addHeadersFromDataSet", "headers.c:addHeadersFromSegments"]}
{"id": "C23", "title": "Header lookup ignores case and the HTTP_ prefix", "statement": "Looking up a field name returns the index of a header equal to it ignoring case, after removing a leading HTTP_; -1 exactly when there is none.", "quantifier": "every header list, field name and length", "why_tests_cant": "infinite domain with boundary lengths", "anchors": ["headers.c:fiftyoneDegreesHeaderGetIndex"]}
{"id": "C24", "title": "Pseudo header evidence is the join of its parts", "statement": "Pseudo evidence is added for a pseudo header exactly when evidence of the same prefix exists for all its segments and none is already present for the pseudo header; its value is the segments' values in order joined by the separator; removing it leaves the original evidence untouched.", "quantifier": "every header set and evidence", "why_tests_cant": "combinations of prefixes and missing segments; buffer boundary lengths", "anchors": ["pseudoheader.c:fiftyoneDegreesPseudoHeadersAddEvidence", "pseudoheader.c:constructPseudoEvidence", "pseudoheader.c:getEvidenceValueForHeader", "pseudoheader.c:fiftyoneDegreesPseudoHeadersRemoveEvidence"]}
{"id": "C25", "title": "Overrides behave as a bounded map", "statement": "After any sequence of override additions the array holds one value per property, namely the last one added for it, in order of first addition, and never more than its capacity; reads return exactly that value.", "quantifier": "every capacity and sequence of additions", "why_tests_cant": "unbounded histories; the full-array boundary", "anchors": ["overrides.c:fiftyoneDegreesOverridesAdd", "overrides.c:fiftyoneDegreesOverrideValuesGetFirst", "overrides.c:fiftyoneDegreesOverrideHasValueForRequiredPropertyIndex", "overrides.c:fiftyoneDegreesOverrideValuesReset"]}
{"id": "C26", "title": "Profile id overrides are parsed completely", "statement": "The profile ids given in evidence as text separated by non-digits are reported to the callback in order, each as the number its digits denote.", "quantifier": "every evidence text", "why_tests_cant": "infinite domain", "anchors": ["overrides.c:extractProfileIds", "overrides.c:extractProfileId", "overrides.c:fiftyoneDegreesOverrideProfileIds"]}
{"id": "C27", "title": "Available properties are the requested ones that exist, sorted and unique", "statement": "Creating the available properties yields, sorted by name ignoring case and without duplicates, exactly the data set properties named in the request (all of them when nothing is requested).", "quantifier": "every data set property list and every request string/array/existing list", "why_tests_cant": "arbitrary lists, separators, duplicates and case", "anchors": ["properties.c:fiftyoneDegreesPropertiesCreate", "properties.c:initRequiredPropertiesFromString", "properties.c:addRequiredProperty", "properties.c:compareNamesAvailable"]}
{"id": "C28", "title": "Looking up an available property by name is exact", "statement": "Looking up a name returns the required index whose name equals it ignoring case, and -1 exactly when no available property has that name; the name at an index maps back to the index.", "quantifier": "every available property list and name", "why_tests_cant": "bsearch correctness depends on sortedness by the same ordering for all lists", "anchors": ["properties.c:fiftyoneDegreesPropertiesGetRequiredPropertyIndexFromName", "properties.c:fiftyoneDegreesPropertiesGetPropertyIndexFromName"]}
{"id": "C29", "title": "A profile's values for a property are all visited, and no others", "statement": "Iterating the values of a profile for a property calls back, in order, for exactly the profile's value indexes that lie in the property's value range (until the callback stops).", "quantifier": "every profile with ascending value indexes and every property range", "why_tests_cant": "boundary combinations of ranges and value lists", "anchors": ["profile.c:getFirstValueForProfileAndProperty", "profile.c:iterateValues", "profile.c:fiftyoneDegreesProfileIterateValuesForProperty"]}
{"id": "C30", "title": "Profile lookup by id is exact", "statement": "Looking up a profile id returns the profile offset recorded for that id and NULL/no result exactly when the id is not in the data set.", "quantifier": "every ordered offsets collection and id", "why_tests_cant": "binary search boundaries incl. empty collection and id 0", "anchors": ["profile.c:fiftyoneDegreesProfileGetOffsetForProfileId", "profile.c:fiftyoneDegreesProfileGetByProfileId"]}
{"id": "C31", "title": "IP addresses parse to the right bytes within bounds", "statement": "A well formed IPv4 or IPv6 text (including one :: run) parses to the bytes it denotes, and no text makes the parser write outside the 4 or 16 bytes allocated.", "quantifier": "every input text", "why_tests_cant": "infinite domain; overflow needs malformed input with too many groups", "anchors": ["ip.c:fiftyoneDegreesIpParseAddress", "ip.c:parseIpV6Segment", "ip.c:getIpByte", "ip.c:callbackIpAddressBuild", "ip.c:callbackIpAddressCount"]}
{"id": "C32", "title": "IP address comparison is a total order on addresses of one type", "statement": "Comparing two addresses of the same type gives 0 exactly when the bytes are equal, is antisymmetric and transitive, and orders them as big-endian numbers.", "quantifier": "all pairs/triples of addresses", "why_tests_cant": "2^256 pairs", "anchors": ["ip.c:fiftyoneDegreesCompareIpAddresses"]}
{"id": "C33", "title": "Text file iteration delivers each line once", "statement": "Iterating a text file calls back once for each line, in order, with the line's text, up to the limit, for every file whose lines are shorter than the buffer.", "quantifier": "every file content, buffer length and limit", "why_tests_cant": "buffer/line boundary alignments are unbounded", "anchors": ["textfile.c:fiftyoneDegreesTextFileIterateWithLimit", "textfile.c:returnNextLine"]}
{"id": "C34", "title": "Allocation tracking reports exact totals", "statement": "With tracking on, at every point the reported allocated total is the sum of sizes of blocks allocated and not freed, and the reported maximum is the largest value that total has had.", "quantifier": "every sequence of allocations and frees of live blocks", "why_tests_cant": "unbounded histories", "anchors": ["memory.c:trackAllocation", "memory.c:untrackAllocation", "memory.c:fiftyoneDegreesMemoryTrackingGetAllocated", "memory.c:fiftyoneDegreesMemoryTrackingGetMax"]}
{"id": "C35", "title": "A list releases every item exactly once", "statement": "Each collection item added to a list is released to its collection exactly once, by release or free, whatever the order of those calls, and every array is freed once; reset is for a list that is new, as documented.", "quantifier": "every capacity and sequence of list operations", "why_tests_cant": "unbounded histories", "anchors": ["list.c:fiftyoneDegreesListInit", "list.c:fiftyoneDegreesListAdd", "list.c:fiftyoneDegreesListReset", "list.c:fiftyoneDegreesListRelease", "list.c:fiftyoneDegreesListFree"]}
{"id": "C36", "title": "Status messages fit their buffer", "statement": "For every status code, including unknown ones, and every file name, the message built is terminated within the bytes allocated for it and contains the file name where the message refers to it.", "quantifier": "every status value and every file name", "why_tests_cant": "any file name length; unknown codes", "anchors": ["status.c:fiftyoneDegreesStatusGetMessage"]}
{"id": "C37", "title": "A data set fetched before a reload stays usable until released", "statement": "A data set obtained for a lookup remains the same, allocated data set until it is released even if the data is reloaded in between, while gets after a completed reload return the new data set; a failed reload leaves the current one in place and leaks nothing.", "quantifier": "every interleaving of get, release, reload and free", "why_tests_cant": "needs schedules of reload against lookups and failure points of the reload", "anchors": ["dataset.c:fiftyoneDegreesDataSetGet", "dataset.c:fiftyoneDegreesDataSetRelease", "dataset.c:fiftyoneDegreesDataSetReloadManagerFromMemory", "dataset.c:fiftyoneDegreesDataSetReloadManagerFromFile"]}
{"id": "C38", "title": "Working buffers are always big enough", "statement": "After asking for n bytes of a reusable data buffer, the buffer returned has at least n bytes, earlier contents are not freed twice and a buffer large enough is reused.", "quantifier": "every sequence of requests", "why_tests_cant": "unbounded histories", "anchors": ["data.c:fiftyoneDegreesDataMalloc", "data.c:fiftyoneDegreesDataReset"]}
{"id": "C39", "title": "Auto reset signal wakes exactly as set", "statement": "A wait on the signal returns only if the signal was set since the previous wait returned (a newly created signal counts as set), and a set signal makes the next wait return: no wake up is lost and no call blocks for ever while the signal is set.", "quantifier": "every schedule of set and wait over any number of threads", "why_tests_cant": "schedules", "anchors": ["threading.c:fiftyoneDegreesSignalCreate", "threading.c:fiftyoneDegreesSignalSet", "threading.c:fiftyoneDegreesSignalWait"]}
{"id": "C40", "title": "Component key value access stays in range", "statement": "Asking a component for key value pair i returns the i-th pair for i below the pair count and otherwise reports an error.", "quantifier": "every component and index", "why_tests_cant": "boundary i = count", "anchors": ["component.c:fiftyoneDegreesComponentGetKeyValuePair"]}
{"id": "C41", "title": "Required property configuration is read consistently", "statement": "The configuration object's count, list and membership queries agree with each other and with the text or list it was built from, however often they are called.", "quantifier": "every configuration text/list and sequence of queries", "why_tests_cant": "sequences of calls", "anchors": ["RequiredPropertiesConfig.cpp:RequiredPropertiesConfig::getProperties", "RequiredPropertiesConfig.cpp:RequiredPropertiesConfig::containsProperty", "RequiredPropertiesConfig.cpp:RequiredPropertiesConfig::getCount"]}
{"id": "C42", "title": "Value lookup by name is exact", "statement": "Looking up a value by name among a property's values returns the index of the value with that name and -1 exactly when there is none.", "quantifier": "every property range and value list ordered by name", "why_tests_cant": "search boundaries", "anchors": ["value.c:fiftyoneDegreesValueGetIndexByName", "value.c:compareValueByName"]}
{"id": "C43", "title": "Temporary file base names and directories", "statement": "The file name helpers return the last path component, and creating a temporary copy succeeds with a path in one of the given directories when at least one directory is usable.", "quantifier": "every path and directory list", "why_tests_cant": "arbitrary strings and failure patterns", "anchors": ["file.c:getNameFromPath", "file.c:fiftyoneDegreesFileGetFileName", "file.c:getBasenameWithoutExtension", "file.c:createTempFileWithPaths"]}
{"id": "C44", "title": "Aligned allocation sizes", "statement": "An aligned allocation of n bytes reserves at least n bytes and a whole multiple of the alignment, as the platform allocator requires.", "quantifier": "every size and alignment", "why_tests_cant": "arithmetic over all sizes", "anchors": ["memory.c:fiftyoneDegreesMemoryStandardMallocAligned"]}
{"id": "C45", "title": "Values report either a value or a reason", "statement": "A result value converted to string/bool/int/double holds a value exactly when the underlying property has one (exactly one for scalar types), and otherwise reading it raises the exception matching the recorded reason.", "quantifier": "every list of underlying values", "why_tests_cant": "all value-list shapes", "anchors": ["ResultsBase.cpp:ResultsBase::getValueAsString", "ResultsBase.cpp:ResultsBase::getValueAsBool", "ResultsBase.cpp:ResultsBase::getValueAsInteger", "Value.hpp:Value::getValue"]}
{"id": "C46", "title": "Override names find their property", "statement": "An evidence field that is the name of an overridable property in any letter case, optionally preceded by the 51D_ prefix when prefixes are enabled, is attributed to that property, and the overridable properties are exactly the available ones the filter accepts.", "quantifier": "every property list, field name and filter", "why_tests_cant": "infinite domain of names; boundary at the prefix length", "anchors": ["overrides.c:skipPrefix", "overrides.c:getRequiredPropertyIndexFromName", "overrides.c:fiftyoneDegreesOverridePropertiesCreate"]}
{"id": "C47", "title": "Overriding property is the first extension of the name", "statement": "The overriding property reported for an available property is the first other property whose name strictly extends its name, or -1 when there is none, and no name is read beyond its end.", "quantifier": "every list of property names and every index", "why_tests_cant": "infinite domain", "anchors": ["overrides.c:startsWith", "overrides.c:fiftyoneDegreesOverridesGetOverridingRequiredPropertyIndex"]}
{"id": "C48", "title": "Set header availability", "statement": "Set headers are reported as available exactly when some available property name starts with SetHeader, ignoring case.", "quantifier": "every list of available properties", "why_tests_cant": "infinite domain of names", "anchors": ["properties.c:fiftyoneDegreesPropertiesIsSetHeaderAvailable"]}
{"id": "C49", "title": "Profiles for a property value", "statement": "Iterating the profiles for a property name and value name calls back, in order, once for each profile that has that value, and for no other; never when the property or value does not exist.", "quantifier": "every data set (properties, values, profiles) and names", "why_tests_cant": "unbounded data sets; reads past a profile's end are invisible to a passing test", "anchors": ["profile.c:fiftyoneDegreesProfileIterateProfilesForPropertyAndValue"]}
{"id": "C50", "title": "Property lookup by name is exact", "statement": "Looking up a property by name returns the first property whose name is exactly the given one, and NULL exactly when there is none.", "quantifier": "every list of properties and every name", "why_tests_cant": "infinite domain of names and lists", "anchors": ["property.c:fiftyoneDegreesPropertyGetByName"]}
{"id": "C51", "title": "Component list holds every component", "statement": "Initialising the component list from the components collection gives one item per component, in order, at the component's start; asking for more components than stored is reported.", "quantifier": "every sequence of components with any numbers of key value pairs", "why_tests_cant": "variable length records: an error in the size arithmetic shows only for particular counts", "anchors": ["component.c:fiftyoneDegreesComponentInitList", "component.c:getFinalComponentSize"]}
{"id": "C52", "title": "Lists of IP addresses", "statement": "A text of IP addresses separated by commas, spaces or both parses to the list of exactly these addresses in order.", "quantifier": "every list of addresses and separators", "why_tests_cant": "infinite domain of texts", "anchors": ["ip.c:fiftyoneDegreesIpParseAddresses"]}
{"id": "C53", "title": "Freeing IP addresses", "statement": "Freeing a list of parsed IP addresses returns each address's memory to the allocator exactly once.", "quantifier": "every list of parsed addresses", "why_tests_cant": "a wrong pointer given to free may go unnoticed or crash much later", "anchors": ["ip.c:fiftyoneDegreesIpFreeAddresses"]}
{"id": "C54", "title": "A created cache has room for the capacity asked for and its shards do not overlap", "statement": "When the cache's create function accepts a capacity and a concurrency, the shards together have at least the capacity asked for, each shard has at least as many nodes as the concurrency, and the nodes of the shards are disjoint and inside the memory allocated.", "quantifier": "every capacity and concurrency", "why_tests_cant": "32 and 16 bit arithmetic over all pairs; the failing ones need gigabytes of memory to run", "anchors": ["cache.c:cacheShardCapacity", "cache.c:cacheInit", "cache.c:fiftyoneDegreesCacheCreate"]}
{"id": "C55", "title": "A pool frees exactly the resources it created", "statement": "Initialising a pool stays inside the memory it allocates for any concurrency, and freeing the pool passes exactly the resources created to the free function, each once, also when the creation of one of them failed half way.", "quantifier": "every concurrency and every sequence of results of the resource creation", "why_tests_cant": "every failure point of every pool size", "anchors": ["pool.c:fiftyoneDegreesPoolInit", "pool.c:fiftyoneDegreesPoolFree"]}
{"id": "C56", "title": "A copied file is exact or absent", "statement": "Copying a file either reports success and the destination then has exactly the contents of the source, or reports an error and leaves no partial destination; no other file changes.", "quantifier": "every file content, every file system state and every point at which a read, a seek or a write can fail", "why_tests_cant": "unbounded contents; fault points in the middle of a copy are not produced by tests", "anchors": ["file.c:fiftyoneDegreesFileCopy", "file.c:fiftyoneDegreesFileDelete"]}
{"id": "C57", "title": "A reused temporary file is a copy of the master", "statement": "A temporary file is reported as existing only if it is a copy of the master file under another name in one of the directories, and one is reported whenever there is one; the comparison stays inside its buffers.", "quantifier": "every set of directories, directory listings, file contents and number of bytes to compare", "why_tests_cant": "unbounded file contents, directory listings and comparison lengths", "anchors": ["file.c:fiftyoneDegreesFileGetExistingTempFile", "file.c:compareFiles", "file.c:iteratorFileCompare"]}
{"id": "C58", "title": "Deleting unused temporary files", "statement": "Deleting the unused temporary files deletes all temporary copies of the master in the given directories that are not in use and can be deleted, nothing else, never the master itself, and returns their number.", "quantifier": "every set of directories, directory listings, file contents and files in use", "why_tests_cant": "unbounded file systems; a wrongly deleted file is not looked for by a test", "anchors": ["file.c:fiftyoneDegreesFileDeleteUnusedTempFiles", "file.c:iteratorFileDelete"]}
{"id": "C59", "title": "A data file is found in the nearest directory upwards", "statement": "The search for a data file from the current directory upwards gives the path of the file in the nearest directory that has it, is not found if none has, and never writes more than the size of the destination.", "quantifier": "every current directory, folder and file name, file system and destination size", "why_tests_cant": "unbounded paths and file systems", "anchors": ["file.c:fiftyoneDegreesFileGetPath"]}
{"id": "C60", "title": "YAML iteration delivers exactly the documents of the file", "statement": "YamlFileIterate calls the callback once for each document of the file that has pairs, in the order of the file, with exactly the keys and values of that document, whatever the size of the read buffer and whatever the pair buffers held before; nothing outside the buffers and the array given is read or written.", "quantifier": "all files in the documented format with any number of documents, pairs, line ends and quoted values; all buffer sizes; all pair arrays", "why_tests_cant": "The parser is a state machine over characters that come in blocks; the results depend on where blocks end, on line ends, quotes, array sizes and on what earlier documents left in the buffers. Tests use a few files and one buffer size.", "anchors": ["yamlfile.c:51-286", "yamlfile.h:33-120"]}
{"id": "C61", "title": "The limit of YAML iteration is kept", "statement": "YamlFileIterateWithLimit passes to the callback exactly the first `limit` documents of the file, or all of them if there are fewer; a negative limit means no limit.", "quantifier": "all files in the documented format and all limits", "why_tests_cant": "Tests use one or two limits; the last document is delivered by different code (end of file, dots, dashes) than the others.", "anchors": ["yamlfile.c:153-306"]}
{"id": "C62", "title": "Advertised evidence keys are complete, unique and lead to what they were advertised for", "statement": "The keys an engine advertises are exactly header./query. plus each non-pseudo header name (with HTTP_ when configured) and cookie./query. plus each overridable property name (with 51D_ when configured), each once; evidence supplied under an advertised key arrives as a field that resolves to that very header or property.", "quantifier": "all header sets, override property sets, prefix settings, prior key lists and evidence values", "why_tests_cant": "Tests check a handful of real header names; the end-to-end link key -> evidence prefix -> header/property lookup must hold for every name, including very short ones.", "anchors": ["EngineBase.cpp:53-113", "evidence.c", "headers.c:370-400", "overrides.c:107-127"]}
{"id": "C63", "title": "Value keys are strictly ordered", "statement": "ValueMetaDataKey operator< is a strict total order consistent with operator==, and is the descending dictionary order on property name then value name.", "quantifier": "all keys with names of any length and bytes", "why_tests_cant": "Transitivity and trichotomy range over all triples of strings; std::map has undefined behaviour if they fail for any.", "anchors": ["ValueMetaData.cpp:62-79"]}
{"id": "C64", "title": "IP address objects hold and copy the address", "statement": "An IpAddress made from a well formed text or from bytes has the type and the bytes of the address, all of its storage is initialised, and getCopyOfIpAddress copies as much of the address as fits the buffer and never more.", "quantifier": "all well formed IPv4/IPv6 texts, all byte arrays and types, all buffer sizes", "why_tests_cant": "The space of addresses and sizes cannot be enumerated; reads of uninitialised bytes are invisible to tests.", "anchors": ["IpAddress.cpp:32-81", "IpAddress.hpp:112-115"]}
{"id": "C65", "title": "Temporary directories reach the C configuration and are freed", "statement": "After any sequence of setTempDirectories calls the C configuration lists exactly the last directories in order in live memory, and the destructor frees every array allocated.", "quantifier": "all sequences of settings, all lists of directories", "why_tests_cant": "Leaks after repeated settings are not observable by assertions; sequences are unbounded.", "anchors": ["ConfigBase.cpp:49-90"]}
{"id": "C66", "title": "Exceptions carry complete messages and their status", "statement": "The message made for an exception holds the status text, file, function and line in full and fits its memory; an exception is okay exactly when not set; C++ exceptions report the code and message of the status they were made for.", "quantifier": "all exceptions: all statuses, files, functions and line numbers", "why_tests_cant": "Buffer size sufficiency depends on the lengths of all the parts, including the longest line numbers; undefined %s arguments may print '(null)' in tests.", "anchors": ["exceptionsc.c:27-58", "exceptions.h:110-142", "Exceptions.cpp:28-67"]}
{"id": "C67", "title": "Results list exactly the requested properties and find each of them", "statement": "getProperties lists exactly the data set's properties that were requested, containsProperty holds exactly for listed names ignoring case, positions and names lead back to each other and positions outside the list have the empty name.", "quantifier": "all data set names, requests, property names and positions", "why_tests_cant": "Needs the sorted list and the search to agree for every name and every list.", "anchors": ["ResultsBase.cpp:39-73", "ResultsBase.cpp:259-264", "properties.c:466-487"]}
{"id": "C68", "title": "Creating a collection leaks nothing and freeing it returns everything", "statement": "Creating a collection from a file or from memory either gives NULL, with exactly the memory in use that was in use before, or a collection; freeing the collection, after any number of items have been loaded into its cache, frees every block it owns exactly once and nothing else. The collection is of the kind the configuration asks for: in memory for the loaded items, with a second one behind it if there are more, with a cache if capacity and concurrency are set.", "quantifier": "all configurations, all patterns of failing seeks, reads and allocations, any number of cache loads", "why_tests_cant": "Tests run with seeks, reads and allocations that succeed; the clean-up paths for every combination of failures are never executed.", "anchors": ["collection.c:140-178", "collection.c:485-726", "collection.c:757-810", "collection.c:843-940", "cache.c:297-380"]}
{"id": "C69", "title": "Reading an item gives its file handle back on every path", "statement": "Reading an item of fixed or variable size from a file leaves the pool's available handles as they were, whether or not the read succeeds; it returns a pointer exactly if no exception is set; the pointer is to memory in use with the item's bytes; no other memory comes into use or is freed; and the exception says which check or operation failed.", "quantifier": "all items, states of the item's data, numbers of handles, and patterns of failing seeks, reads and allocations", "why_tests_cant": "A handle lost on a rare error path only shows when the pool runs dry much later; tests do not make seeks, reads or allocations fail.", "anchors": ["collection.c:945-1157", "data.c:33-49", "file.c:991-999", "pool.c:70-97"]}
{"id": "C70", "title": "A data set's working file is its own, and freeing the data set leaves the user's files as they were", "statement": "Initialising a data set from a file uses that file when no temporary file is wanted, and otherwise a copy of it with the same contents under another name; no file that existed before is changed or deleted by the initialisation or by freeing the data set; after it has been freed no copy remains; a name that does not fit is refused without effect; a data set can always be freed.", "quantifier": "all file systems (which files exist and can be read, written, deleted), configurations, lists of directories, file names and sequences of random names", "why_tests_cant": "Tests use one directory with known contents; losing a user's file or leaving copies behind depends on what else is in the directories, on other data sets sharing a file, and on failures in the middle.", "anchors": ["dataset.c:51-114", "dataset.c:183-235", "file.c:687-868", "file.c:1005-1042"]}
{"id": "C71", "title": "Reading, writing and pooling whole files report success exactly when the bytes are complete", "statement": "Reading a file into memory succeeds exactly if the file can be read completely and memory can be had, and gives its bytes; writing succeeds exactly if all bytes are written, changes no other file, and what was written is read back; a pool of file readers is initialised exactly if the file can be opened as often as asked for, with the length of the file; after a failure no memory is counted as allocated.", "quantifier": "all file contents, data, limits on reads, writes, open files and memory, and concurrency values below 65535", "why_tests_cant": "Failures of reads, writes, seeks and allocations are not provoked by tests, and empty files are rarely tried.", "anchors": ["file.c:61-97", "file.c:580-593", "file.c:961-1003", "file.c:1054-1091", "dataset.c:237-250"]}
{"id": "C72", "title": "Strings, components, profiles and integers are got whole", "statement": "A string, a component or a profile stored anywhere in a data file, among others of different lengths, is got whole by its offset through its reader, and an integer by its index with its sign, from a collection in memory, in the file, cached or partly loaded; releasing what was got leaves memory and cache as before. Outside of the collection there is an exception and the integer is 0.", "quantifier": "all sequences of records of all lengths, all kinds of storage, all histories of the cache", "why_tests_cant": "the size of a record is computed from its first bytes with 16 and 32 bit arithmetic; tests see the few lengths of one data file, and one kind of storage at a time", "anchors": ["string.c:getFinalStringSize", "component.c:getFinalComponentSize", "profile.c:getFinalProfileSize", "collection.c:fiftyoneDegreesCollectionReadFileVariable", "collection.c:fiftyoneDegreesCollectionGetInteger32"]}
{"id": "C73", "title": "Profiles are found by id and by index in every kind of storage", "statement": "Getting a profile by its id, or by the index of its offset, gives the whole profile with that id, from offsets and profiles in any kind of storage, and all items got on the way have been given back. An id which does not exist gives no profile and no exception; the id 0 and an index outside give an exception.", "quantifier": "all tables of offsets sorted by id, all profiles, all ids, all kinds of storage of both collections, all histories of the caches", "why_tests_cant": "whether the binary search keeps a cached item or compares a stale one depends on the state of the cache and on what other callers hold", "anchors": ["profile.c:fiftyoneDegreesProfileGetByProfileId", "profile.c:fiftyoneDegreesProfileGetByIndex", "profile.c:fiftyoneDegreesProfileGetOffsetForProfileId", "collection.c:fiftyoneDegreesCollectionBinarySearch"]}
{"id": "C74", "title": "Items held at the same time keep their bytes until each is released", "statement": "A caller which gets several items of a collection before releasing any sees, in each item it still holds, the bytes stored for that item, whatever was got or released in between and in whatever order the items are released. When the last one is released, the memory and the counts of users in the cache are as before the first get.", "quantifier": "all files, all kinds of storage, all sequences of gets and releases by one caller, all histories of the cache", "why_tests_cant": "whether a cached item is evicted under its holder depends on the whole history of the cache and the order of releases", "anchors": ["collection.c:getFileVariable", "collection.c:getMemoryVariable", "collection.c:getFromCache", "collection.c:releaseFile", "collection.c:releaseCached", "cache.c:fiftyoneDegreesCacheGet", "cache.c:fiftyoneDegreesCacheRelease"]}
{"id": "C75", "title": "Iterating the profiles with a value reaches each of them and keeps nothing", "statement": "For a property and one of its values the callback is called once for each profile that has the value, in the order of the profile offsets, and afterwards no item of the offsets or the profiles is still held, whatever kinds of storage the two collections have.", "quantifier": "all tables of offsets, all profiles with sorted values, all properties and values, all kinds of storage of both collections, all histories of the caches", "why_tests_cant": "items that are not given back show only when a cache of a particular size is used up, and then as profiles that are silently left out", "anchors": ["profile.c:fiftyoneDegreesProfileIterateProfilesForPropertyAndValue"]}
{"id": "C76", "title": "Creating and freeing available properties keeps nothing and never overruns", "statement": "Whatever properties are asked for and whatever reads of names or allocations fail on the way, creating the list of available properties writes within the memory reserved for it, holds exactly the names and evidence arrays of the items in the list, and freeing the list, complete or not, gives back exactly these.", "quantifier": "all data sets' names, all requests (all, existing, array, string), all patterns of failing reads and allocations, all numbers of evidence properties, all states of memory and items held before", "why_tests_cant": "the list is sized by a first pass and filled by a second, and only a read or an allocation that fails at one particular call makes the two differ or leaves an item half made", "anchors": ["properties.c:fiftyoneDegreesPropertiesCreate", "properties.c:setPropertyNames", "properties.c:setEvidenceProperties", "properties.c:initRequiredProperties", "properties.c:addRequiredProperty", "properties.c:fiftyoneDegreesPropertiesFree"]}
{"id": "C77", "title": "The status of initialising a data set's properties tells what happened", "statement": "Initialising the properties of a data set succeeds exactly if at least one property asked for is in the data set and every such property is available with its index, its name and all its evidence properties; otherwise the status names the reason: no property asked for is present, not enough memory, or a failure to get a name or evidence properties.", "quantifier": "all data sets' names, all requests, all patterns of failing reads and allocations, all answers of the evidence method", "why_tests_cant": "the reasons for failure come from reads and allocations that do not fail in tests, and a status that is wrong only then is not seen", "anchors": ["dataset.c:fiftyoneDegreesDataSetInitProperties", "properties.c:fiftyoneDegreesPropertiesCreate"]}
{"id": "C78", "title": "Creating and freeing headers keeps nothing and never overruns", "statement": "Whatever reads of header names or allocations fail on the way, creating the headers of a data set writes within the memory reserved for them and holds no name item afterwards; if it fails, it does so only for lack of memory, says so, and has given back everything, and freeing the headers gives back exactly what creation allocated.", "quantifier": "all lists of header names and ids, all patterns of failing reads and allocations, all states of memory and items held before", "why_tests_cant": "the paths for failed allocations are never taken in tests, and an item or a name lost on them shows only as a cache node that is missing or memory that is never given back", "anchors": ["headers.c:fiftyoneDegreesHeadersCreate", "headers.c:addHeadersFromDataSet", "headers.c:addHeadersFromSegments", "headers.c:setHeaderFromDataSet", "headers.c:setHeaderFromSegment", "headers.c:fiftyoneDegreesHeadersFree", "dataset.c:fiftyoneDegreesDataSetInitHeaders"]}
{"id": "C79", "title": "Override values live in buffers of their own that are reused and given back", "statement": "After any sequence of additions and resets, whatever allocations fail, the array of override values has stayed within its memory, the pointer returned for a property leads to a string whose bytes are the value held for it, pointers given out stay valid until the array is reset or freed, a value that fits the buffer of its property needs no memory, and freeing the array leaves exactly the memory there was before it was created.", "quantifier": "all sequences of additions and resets, all texts, all capacities, all patterns of failing allocations, all states of memory before", "why_tests_cant": "the buffers are reused in ways that depend on the order and lengths of all texts added before, and the paths for failed allocations are never taken in tests", "anchors": ["overrides.c:fiftyoneDegreesOverridesAdd", "overrides.c:fiftyoneDegreesOverrideValuesCreate", "overrides.c:fiftyoneDegreesOverrideValuesGetFirst", "overrides.c:fiftyoneDegreesOverrideValuesReset", "overrides.c:fiftyoneDegreesOverrideValuesFree", "data.c:fiftyoneDegreesDataMalloc"]}
{"id": "C80", "title": "A property looked up by its name is the right one wherever the data are kept", "statement": "Looking a property up by its name returns the first property with that name, with the bytes of the data file behind the pointer, and NULL exactly if no property has the name; releasing the item of the caller then gives back everything that was taken from the two collections. Reading the value type of a property or the id of a component's default profile gives the one in the file and gives back what was taken.", "quantifier": "all tables of properties and names, all names asked for, every kind of storage of the two collections, all states of their caches with a free node", "why_tests_cant": "the release of the name goes through the collection of the properties, so what happens depends on the pair of storage kinds and on which nodes of the cache are held; tests use one configuration for both", "anchors": ["property.c:fiftyoneDegreesPropertyGetByName", "property.c:fiftyoneDegreesPropertyGetValueType", "component.c:fiftyoneDegreesComponentGetDefaultProfileId"]}
{"id": "C81", "title": "A value looked up by its name is the right one wherever the data are kept", "statement": "Looking up a value of a property by its name gives the index of, or a pointer to the bytes of, the value in the property's range whose name it is, and -1 or NULL exactly if there is none, with no exception; all that was taken from the values and the strings during the search is given back, except the value returned, and releasing the caller's item gives that back too.", "quantifier": "all tables of values and names in the three formats, all ranges with values, all names asked for, every kind of storage of the two collections, all states of their caches with a free node", "why_tests_cant": "each step of the search takes an item from two collections, and whether all are given back depends on the path of the search, the storage kinds and the state of the caches", "anchors": ["value.c:fiftyoneDegreesValueGetIndexByName", "value.c:fiftyoneDegreesValueGetByName", "value.c:compareValueByName", "collection.c:fiftyoneDegreesCollectionBinarySearch"]}
{"id": "C82", "title": "Texts and coordinates behind offsets are those of the data file", "statement": "Copying the string at an offset, or appending it to a stream, gives exactly the bytes of the text in the data file before its terminator and gives back the item; an offset outside of the strings is reported as an exception and appends nothing. The string of a property, value or component is the one at the offset in that field of the record. The coordinate of a string is the pair of floats stored in it, and CORRUPT_DATA with two zeros if the string is not a coordinate.", "quantifier": "all lists of strings in the three formats, all offsets of strings and outside, every kind of storage, all states of the cache with a free node", "why_tests_cant": "the paths differ by storage kind, by the state of the cache and by the format of the string; tests read a few strings from one data file", "anchors": ["MetaData.cpp:MetaData::getString", "EntityMetaDataBuilder.hpp:getString", "EngineBase.cpp:EngineBase::appendString", "property.c:fiftyoneDegreesPropertyGetName", "value.c:fiftyoneDegreesValueGetDescription", "component.c:fiftyoneDegreesComponentGetName", "coordinate.c:fiftyoneDegreesIpiGetCoordinate"]}
{"id": "C83", "title": "Profiles looked up by the names of a property and a value are exactly those with the value", "statement": "Iterating the profiles for the name of a property and the name of a value calls the callback once for each profile which has the value of that name among the values of the first property of that name, in the order of the profile offsets, and for no other profile; it calls it for none if there is no such property or value. Afterwards no item of the five collections used is still held.", "quantifier": "all data files, all names of properties and values, every kind of storage of each of the five collections, all states of their caches with a free node", "why_tests_cant": "the result depends on the combination of storage kinds of five collections, on the nodes held in their caches and on what uninitialised items contain; tests open one data file with one configuration for all collections", "anchors": ["profile.c:fiftyoneDegreesProfileIterateProfilesForPropertyAndValue", "property.c:fiftyoneDegreesPropertyGetByName", "value.c:fiftyoneDegreesValueGetIndexByName"]}
{"id": "C84", "title": "The values of a profile for a property reach the callback as items that stay valid", "statement": "Iterating the values of a profile for a property passes to the callback one item for each value of the profile in the range of the property, in order, until the callback says to stop; every item that was passed shows the bytes of its value in the data file for as long as it is not released, also while later values are fetched; and releasing the items gives back everything that was taken. A value that is not in the data file is reported as an exception.", "quantifier": "all profiles with ascending values, all properties, all callbacks, every kind of storage of the values, all states of the cache with room for the items", "why_tests_cant": "items overwritten by later ones or lost values show only for some sizes of the cache and some numbers of values; the handle of the local item is not initialised, so that tests see one of many behaviours", "anchors": ["profile.c:fiftyoneDegreesProfileIterateValuesForProperty", "profile.c:iterateValues"]}
{"id": "C85", "title": "A file in use is recognised and never deleted", "statement": "A file counts as in use exactly when some process has it open, and as in use where that cannot be found out; the check stays inside its buffers for everything the processes have open; and deleting the unused temporary files leaves every file that is in use.", "quantifier": "every set of processes with every set of open files, every path, every set of directories and files", "why_tests_cant": "depends on what the other processes of the machine have open and on the lengths of their paths; the write after the buffer shows only for links of the greatest length", "anchors": ["file.c:isFileInUse", "file.c:iteratorFileDelete", "file.c:fiftyoneDegreesFileDeleteUnusedTempFiles"]}
{"id": "C86", "title": "Allocation tracking is exact with any number of threads", "statement": "While threads allocate and free with tracking on, in any interleaving, the total reported counts every block the program has and no block the system has back, is the sum of the sizes of the blocks in use when no call is under way, and is zero at the end exactly if everything was freed; the maximum reported is the largest total there has been; every free finds the record of its block; and turning tracking on starts from nothing.", "quantifier": "every number of threads, every interleaving of every sequence of allocations and frees, every address the system gives", "why_tests_cant": "needs all interleavings of the steps of calls made by all threads; the lost reset and the reused address show only for particular ones", "anchors": ["memory.c:fiftyoneDegreesMemoryTrackingMalloc", "memory.c:trackAllocation", "memory.c:untrackAllocation", "memory.c:fiftyoneDegreesMemoryTrackingReset"]}
{"id": "C87", "title": "The cache is correct with any number of threads", "statement": "When threads get and release items of one cache, in any interleaving, every shard behaves as if its calls were made one after the other in the order they return; every get returns the data loaded for the key it was called with; a node someone holds keeps its data until it is given back; no thread waits for ever while loaders return, and each call ends after at most eight steps of its own; when no call is under way no lock is taken and exactly the nodes not given back are in use; and the counts of hits and misses are those of the calls made.", "quantifier": "every number of threads, every interleaving of every sequence of gets and releases, every loader and every outcome of it, every capacity and concurrency", "why_tests_cant": "needs all interleavings of the steps of calls made by all threads on all histories; the lost counts show only for particular ones", "anchors": ["cache.c:fiftyoneDegreesCacheGet", "cache.c:fiftyoneDegreesCacheRelease", "cache.c:cacheLoad", "cache.c:cacheGetNextFree"]}
{"id": "C88", "title": "Threads reading items from the data file do not mix them up", "statement": "When threads read items of any collections of one data file, sharing the pool of file handles, in any interleaving, every read has the result it has with no other thread reading, except that it reports too few handles when all were in use at the moment it asked: so it gives the bytes of its item or says the key is not in the collection. No two threads have the same handle at the same time; every handle is back in the pool when no read is under way, whatever failed; with as many handles as threads none goes without; what is returned is for the collection and key asked for; no read waits for another, and each ends after at most six steps of its own.", "quantifier": "every file, every number of threads and handles, every interleaving of every sequence of reads of every collection and key, every failure of seeking and reading, every position the handles start at", "why_tests_cant": "a handle shared or moved between seek and read shows only in particular interleavings; tests run a few of them on one file", "anchors": ["collection.c:getFile", "collection.c:fiftyoneDegreesCollectionReadFileFixed", "collection.c:fiftyoneDegreesCollectionReadFileVariable", "collection.c:fiftyoneDegreesCollectionReadFilePosition", "file.c:fiftyoneDegreesFileHandleGet", "file.c:fiftyoneDegreesFileHandleRelease"]}
{"id": "C89", "title": "A cached collection gives every thread the bytes of its item", "statement": "When threads get and release items of a cached collection in any interleaving, while others read other collections of the same data file with the same handles, every item that was got and not released has, at every moment, the bytes of its key in the file; what a get returns is for the key it was called with; a get gives no item only because a read of its key failed or because all nodes of its shard are in use, so with a handle for each thread, a free node and no error of the system a get of a key of the collection gives the item; some thread can always go on while one is in a call, and each call ends after at most fourteen steps of its own; when no call is under way all handles are in the pool and the nodes in use are those of the items not released and those whose load failed.", "quantifier": "every file, collection, number of threads, handles, shards and nodes, every interleaving of every sequence of gets, releases and other reads, every failure of seeking and reading", "why_tests_cant": "needs the cache and the pool under all interleavings on all histories; the bytes of a held item must be right at every step of every other thread, not only when it is read", "anchors": ["collection.c:getFromCache", "collection.c:loaderCache", "collection.c:releaseCache", "cache.c:fiftyoneDegreesCacheGet", "cache.c:fiftyoneDegreesCacheRelease", "pool.c:fiftyoneDegreesPoolItemGet"]}
{"id": "C90", "title": "Freeing a data set gives back all it took", "statement": "Whichever parts of a data set are initialised (headers, available and overridable properties, open files, data in memory), in whatever order and with whatever failures of reads, opens and allocations, freeing the data set is defined and gives back every block, held item and open file that the data set took, each exactly once, and nothing that was there before; the working file is deleted just if it is a temporary one; the data set can be freed again without giving back anything twice, and its parts can be initialised again.", "quantifier": "every sequence of initialisations and frees, every source of names, every failure of every allocation, read and open, every earlier contents of memory", "why_tests_cant": "tests initialise in one order with no failures; a leak or double free shows only with a particular failure at a particular point", "anchors": ["dataset.c:fiftyoneDegreesDataSetFree", "dataset.c:fiftyoneDegreesDataSetReset", "dataset.c:fiftyoneDegreesDataSetInitProperties", "dataset.c:fiftyoneDegreesDataSetInitHeaders", "dataset.c:fiftyoneDegreesDataSetInitInMemory", "file.c:fiftyoneDegreesFilePoolInit", "pool.c:fiftyoneDegreesPoolFree", "overrides.c:fiftyoneDegreesOverridePropertiesCreate"]}
{"id": "C91", "title": "A request reads one version of the data from start to end", "statement": "Let any number of threads get the data set, get and release items of its cached collection and read its other collections, and release the data set, while other threads reload the data set any number of times, in any interleaving of their memory accesses, cache steps and file operations. From the moment a request has got the data set until it releases it, it has the same data set, which is not freed, and every item it gets has the bytes of that item in the file this data set was made from, never those of an older or newer file. A request with one data set does not change the cache or handles of another. When a data set is freed no request has it, no call with it is under way, no item of it is held and all its file handles are in its pool. Some request with a call under way can always go on, whatever reloads are under way. A request that starts after a reload has returned reads the new data.", "quantifier": "all numbers of threads, all schedules of gets, releases, item gets and releases, reads, reloads and frees, all files and collections, all capacities and numbers of handles", "why_tests_cant": "A test with a few threads and reloads sees a handful of interleavings; mixing of versions or a free during a read needs particular ones.", "anchors": ["dataset.c:252-337", "resource.c:180-356", "collection.c:320-391", "collection.c:940-1140", "cache.c:382-441"]}
{"id": "C92", "title": "Without threading, a shared resource is counted exactly and freed once, at the right moment", "statement": "In a build without threading, a program that releases only handles it has, uses the manager no more after freeing it other than to release, and has fewer than 2147483647 handles at once never makes the resource manager read or write memory that is not there. Getting gives a handle of the resource installed last. What was got stays in memory with its resource until it is released. Each resource is passed to the method which frees it exactly once, at the moment it is neither the one to be used nor held by anyone. After the manager was freed and everything was released nothing is left. This holds also when the allocator uses the address of a freed handle again.", "quantifier": "every sequence of calls of ResourceHandleIncUse, ResourceHandleDecUse, ResourceReplace and ResourceManagerFree allowed by the contract, every choice of addresses by the allocator (allocation succeeding)", "why_tests_cant": "There are infinitely many orders of gets, releases and reloads, and a use of freed memory or the reuse of an address shows in a test only by chance.", "anchors": ["resource.c:86-98", "resource.c:125-196", "resource.c:231-268", "resource.c:300-304", "resource.c:349-354"]}
{"id": "C93", "title": "Without threading, the pool is a stack of distinct items", "statement": "In a build without threading, a pool created for up to 65534 users gives out each item to one holder at a time, together with the resource created for it, never accesses memory outside of its items, gives the item released last first, and reports INSUFFICIENT_HANDLES exactly when every usable item is held. Usable are the items created after the last one that has no resource, so all of them when every resource could be created.", "quantifier": "every result of creating the resources, every sequence of gets and releases of held items", "why_tests_cant": "The order of gets and releases and where creating a resource fails are unbounded; tests exhaust a pool only in a few orders.", "anchors": ["pool.c:27-74", "pool.c:84-92", "pool.c:102-104", "pool.c:120-122"]}
{"id": "C94", "title": "Items and look-ups without an exception structure", "statement": "With NULL in place of the exception structure, getting an item from a collection, and looking up a value, a property, a profile, or the list of components, never returns a wrong item and never keeps anything: when the same call with a structure reports no exception it does and returns just the same, and otherwise it returns NULL (or 0, or -1) and leaves the collection as the failed call would have.", "quantifier": "every collection (in memory, in the file, cached, partly loaded), file, state, key, name and item", "why_tests_cant": "Whether a read fails depends on the file, the state of the cache and the file handles; tests always pass a structure, so that the branches taken with NULL after a failure are never run.", "anchors": ["exceptions.h:122-143", "collection.c:35-50", "collection.c:186-342", "collection.c:353-392", "cache.c:268-290", "collection.c:1163-1224", "value.c:127-249", "property.c:99-161", "profile.c:151-197", "component.c:33-51", "component.c:107-122"]}
{"id": "C95", "title": "A failure while profiles are reported costs nothing", "statement": "When an offset or a profile cannot be read while the profiles with a value are reported to a callback, the callback is not called any more, the exception is that of the failure, and all file handles and cache nodes taken are free again.", "quantifier": "every kind of collection of the offsets and profiles, every file and state, every index at which the reading fails, every number of free file handles", "why_tests_cant": "The loop goes on after a failure with the exception set; what that costs depends on where the failure is, on how the offsets are stored and on the number of handles, and shows only in later calls.", "anchors": ["profile.c:303-342", "collection.c:272-297", "collection.c:308-342", "collection.c:945-1033", "pool.c:76-100"]}
{"id": "C96", "title": "A build with data only in memory gives the same items and gives all memory back", "statement": "In a build with FIFTYONE_DEGREES_MEMORY_ONLY a collection created from a file gives every item with the bytes the other builds give, whatever the configuration, with any number of items held and none released. It is NULL exactly when its bytes cannot be had, and the memory used, in use and as counted by the tracker, is as before when the creation failed or the collection has been freed.", "quantifier": "every file and header, items of fixed and variable size, every key, state and item, every allocation of data, seek and read that may fail", "why_tests_cant": "The build is a different program for the same data: equality with the other builds is over all files, keys and configurations, and the failures at each step have to be provoked.", "anchors": ["collection.c:759-810", "collection.c:843-940", "collection.c:145-157", "collection.h:265-269", "memory.c:109-183"]}
{"id": "C97", "title": "An evidence object's array stays good and is freed once", "statement": "Objects of class EvidenceBase can be filled, changed, read and destroyed in any order. The array that get returns has a pair for each relevant entry and can be read unchanged until the next get, clear, erase or destruction of that object, whatever happens to other objects. Each object behaves as a map; nothing is used after it has been freed, nothing is freed twice, and when all objects have been destroyed the memory in use is as before.", "quantifier": "every number of objects, every sequence of calls, every relevance test and failing allocation, with and without memory tracking", "why_tests_cant": "Pointers into the texts of the map are shared with the C code; whether one dangles depends on the whole history of calls, and reading it usually goes unnoticed.", "anchors": ["EvidenceBase.cpp:29-91", "evidence.c:54-90", "EvidenceBase.hpp:67-135"]}
{"id": "C98", "title": "The asserts of the cache never fail", "statement": "In a build with asserts, and also with FIFTYONE_DEGREES_CACHE_VALIDATE defined, no sequence of permitted calls on a cache ends the process: CacheCreate, CacheGet and CacheRelease then do exactly what they do in a build without asserts, whatever the loader does and whichever threads make the calls.", "quantifier": "every memory contents, capacity, sequence of gets and releases, loader outcome and interleaving of threads", "why_tests_cant": "Tests run the build they are compiled as; whether a check on the shape of the list and tree can fail depends on the whole history of loads, failures and evictions, and its unlocked read on timing.", "anchors": ["cache.c:33-81", "cache.c:188-258", "cache.c:315-434", "tree.c:246-258", "tree.c:386-390"]}
{"id": "C99", "title": "The data update URL asks for the data of the key last set", "statement": "getDataUpdateUrl returns the URL last given to setDataUpdateUrl when that is not empty; otherwise, with a non-empty key last given to setLicenseKey, an address of the distributor in which a server reads exactly three parameters, LicenceKeys with that key, Type and Product with what the engine reports; otherwise the empty string. getAutomaticUpdatesEnabled is true exactly when the URL or the key last set is not empty.", "quantifier": "every sequence of the two setters with any byte strings, and every type and product of plain bytes", "why_tests_cant": "Keys are arbitrary strings, zero bytes and separators included; what a server reads from the address is not observed by a test that compares it with an expected text.", "anchors": ["EngineBase.cpp:29-40", "EngineBase.cpp:115-143", "EngineBase.hpp:142-201"]}
{"id": "C100", "title": "An engine and its results may be deleted in any order", "statement": "Results stay usable when the engine's data is refreshed and when the engine is deleted: the data set a results object was made with is the one it keeps, and is not freed before the results object is deleted. The resource manager they share is freed exactly once, when the engine and all results objects are deleted, and no call on it goes on after that. Each data set the engine ever had is freed exactly once by then. No freed memory is used.", "quantifier": "every schedule of the memory accesses of any number of threads that process, refresh and delete results objects and the engine, the engine not being used once its deletion started", "why_tests_cant": "There are infinitely many orders of processing, refreshing and deleting, and of the accesses of the threads that do so; a data set lost or freed early shows in few of them.", "anchors": ["EngineBase.cpp:29-51", "EngineBase.hpp:251-257", "ResultsBase.cpp:29-37", "ResultsBase.hpp:409-416", "resource.c:162-365"]}
{"id": "C101", "title": "The asserts of the resource manager never fail", "statement": "A debug build of the resource manager, in which a failing assert ends the process, does for every program that keeps to the contract exactly what a release build does: none of its asserts about the counters of the handles fails. A program that gives back a handle it does not hold is stopped by one.", "quantifier": "every schedule of the memory accesses of any number of threads that get, release, replace and free; without threads, every sequence of calls", "why_tests_cant": "Some of the asserts are made between two accesses of a thread that other threads may have changed the counter or the active handle in; whether one can fail depends on the schedule, and there are infinitely many.", "anchors": ["resource.c:179-196", "resource.c:198-271", "resource.c:273-305", "resource.c:323-355"]}
{"id": "C102", "title": "The allocation tracker keeps exactly one record for each block in use", "statement": "With tracking on, whatever threads allocate and free, each block the program has is found in the tree of its shard with its size, no call is stopped by an assert of the tracker or of its trees, the totals reported are those of C86, and when no call is under way there is no record of any other block: when everything was freed the tracker has given its own memory back too.", "quantifier": "every number of threads, every interleaving of every sequence of allocations and frees, every address the system gives for a block or a record", "why_tests_cant": "The shape of the trees depends on the addresses the system gives and on the order of the threads; there are infinitely many histories, and tests run the few that the platform's allocator happens to make.", "anchors": ["memory.c:111-183", "memory.c:246-263", "tree.c:259-347"]}
{"id": "C103", "title": "No data file makes an assert of a collection or a list fail", "statement": "In a build with asserts, getting any item from a collection, listing the components of a data file and adding override values to a list never ends the process: an item given from the memory of a collection starts inside that memory, and for items of a fixed size ends inside it, every get without an exception records the collection the item must be released to, and nothing is added to a full list. This holds for any bytes in the file and any header.", "quantifier": "every file, every header and configuration, every key, every item passed in, every state of the cache, every number of components, every list of override values", "why_tests_cant": "The tests read well formed data files. The position of an item depends on the count, the length and the size of the elements of a header, and the relation between them has to hold for all values, corrupt ones too.", "anchors": ["collection.c:186-270", "collection.c:455-483", "collection.c:560-642", "collection.c:757-810", "list.c:39-45", "component.c:98-124", "overrides.c:317-352"]}
{"id": "C104", "title": "Processes that make temporary files at the same time do not disturb each other", "statement": "When several processes, or threads that are given different random strings, make temporary copies of data files at the same time with NewTempFile, use them and delete them, no two ever have the same file, every copy in use has the whole content of its data file, no file that was there before is changed or deleted, and when all are done the files are as before. This holds for every interleaving of their calls of the operating system, though the check for an existing file and its creation are two calls.", "quantifier": "every number of threads and processes, every interleaving of their steps, all directories, names, process ids and random numbers, every file system, with failing writes", "why_tests_cant": "A test runs in one process, and the interleavings that matter lie between the check of the name and the creation of the file. That names of different processes never meet depends on the form of the name, for all directories, base names and numbers.", "anchors": ["file.c:180-247", "file.c:728-771", "file.c:784-913", "file.c:1005-1042", "process.c:37-43", "dataset.c:71-101"]}
{"id": "C105", "title": "Making a temporary file always ends with a definite status", "statement": "NewTempFile and CreateTempFile end with an assert that a status has been set. Without directories, or with a number of directories that is not negative, the assert never fails and the status returned is never NOT_SET, whatever the files, names, lengths and random strings are; so a build with asserts does the same as one without.", "quantifier": "all file systems, master files, lists of directories, numbers, lengths of the buffer and random strings, builds with and without asserts", "why_tests_cant": "The status passes through seven functions, with a branch for each way a name can be too long, a directory unusable or a copy incomplete. Tests run in one kind of build and try a few of these.", "anchors": ["file.c:784-868", "file.c:870-913"]}
{"id": "C106", "title": "Calls of the pool and of the resource manager are not held up by other threads", "statement": "The calls that get and release pool items, and the calls that get, release, replace and free the managed resource, retry until an exchange succeeds. Whatever the threads do, the memory accesses of all threads together are bounded by a fixed number per thread for each call started, so that calls keep returning as long as threads run. A thread that gets or releases a pool item or a resource and runs alone returns after a fixed number of accesses, wherever the other threads were stopped: none of them can block it.", "quantifier": "every number of threads, every schedule of their accesses, every state of the pool and of the manager that can be reached", "why_tests_cant": "a test runs a few schedules; that there is no schedule in which threads keep each other from finishing is a statement about all of them", "anchors": ["pool.c:76-121", "resource.c:201-353"]}
{"id": "C107", "title": "Binary searches fetch logarithmically many items, whatever the data", "statement": "A binary search of n items of a collection, and with it the look-up of a profile by its id and of a value by its name, ends after at most log2 n + 1 gets and gets no item twice, whether or not the items are sorted, whatever the comparer answers and whichever gets fail.", "quantifier": "every collection of every kind, every state of its cache, every range below the largest index, every comparer", "why_tests_cant": "tests search well formed data; that a search of unsorted or damaged data ends, and within the bound, is a statement about all data", "anchors": ["collection.c:1177-1228", "profile.c:151-175", "value.c:198-249"]}
{"id": "C108", "title": "What a cached collection keeps in memory is bounded, holds the items, and is given back", "statement": "A cached collection keeps between calls at most as many blocks of memory as its cache has nodes, none larger than the largest item asked for. A pointer returned by a get shows the bytes of the item with that key until the item is released, also when memory was refused in some calls. A get that returns nothing for an item that is there sets an exception, unless all nodes are in use. Freeing the collection frees every block it kept, each exactly once, and nothing else.", "quantifier": "every file, fixed or variable items, every capacity and number of shards, every sequence of gets and releases, every choice of which allocations fail", "why_tests_cant": "allocation failures and memory held after long histories of loads of different sizes and evictions are not reached by tests, and a leak or double free shows only under some orders of sizes", "anchors": ["collection.c:308-392", "data.c:33-49", "cache.c:297-306", "collection.c:979-1105"]}
{"id": "C109", "title": "Reloading keeps the properties that were asked for", "statement": "After any history of reloads of a manager, the available properties are those asked for when it was first opened that the data now active have, in ascending order, with the indexes of that data. A reload fails, and leaves the properties as they were, when the new data have none of the properties available. A reload with data that have all of them leaves every required property index with the same property.", "quantifier": "every request, every sequence of versions of the data (names told apart ignoring case), failed reloads among them, every behaviour of qsort on equal elements", "why_tests_cant": "tests reload the same data file, so histories of versions with properties that go, come back or are renamed in case are never tried, and the state after many reloads depends on the whole history", "anchors": ["dataset.c:116-162", "dataset.c:261-337", "properties.c:145-165", "properties.c:268-281"]}
{"id": "C110", "title": "Opening a file for writing leaves the permissions of everything else alone", "statement": "The library clears the file mode creation mask of the process while it opens a file for writing. Afterwards the process has the mask it had. The file opened can be read and written by everyone, and what other parts of the program make has the permissions asked for less the mask. A directory the library makes is open to its user only.", "quantifier": "every mask, every number of threads, every interleaving of writes (of files and temporary copies), of directories made and of files made by the rest of the program, successful or not", "why_tests_cant": "the mask is shared by all threads and the interval without it lasts microseconds; tests write files from one thread and never look at the mask or at permissions", "anchors": ["file.c:99-126", "file.c:579-593", "file.c:595-620", "file.c:1019-1042"]}
{"id": "C111", "title": "Configurations queried in different threads do not affect one another", "statement": "Listing the required properties of a configuration made from a text, or asking whether it contains one, gives the names in the text of that configuration, also while other configurations are queried in other threads.", "quantifier": "every number of threads, each with a configuration of its own and one query, every text without zero bytes, every interleaving of the calls of strtok", "why_tests_cant": "the configurations have nothing in common that a user can see; the position strtok keeps for all threads only shows under particular interleavings of the loops", "anchors": ["RequiredPropertiesConfig.cpp:91-108", "RequiredPropertiesConfig.cpp:110-131"]}
{"id": "C112", "title": "Required properties configurations own their memory", "statement": "Making configurations of required properties from lists and texts, copying, querying and destroying them never writes past a block, uses freed memory or frees it twice; the memory in use is that of the configurations there are, and none is left when they are destroyed.", "quantifier": "every sequence of constructions, copies, queries and destructions of any number of configurations, every list and text, every choice of which allocations are refused", "why_tests_cant": "a double free or use of freed memory need not show when a test runs, allocations are not refused, and the histories of objects are unlimited", "anchors": ["RequiredPropertiesConfig.cpp:37-89", "RequiredPropertiesConfig.hpp:58-170"]}
{"id": "C113", "title": "Success of writing or copying a file means that its bytes reached it", "statement": "When writing bytes to a file or copying a file reports success, the file afterwards has all of the bytes, although the C library buffers them and hands them to the system later.", "quantifier": "every content, every room left on the device, every way in which the C library buffers", "why_tests_cant": "tests have room on the device and one C library; the bytes still in the buffer fail only when the file is closed", "anchors": ["file.c:fiftyoneDegreesFileWrite", "file.c:fiftyoneDegreesFileCopy", "file.c:fileCopy"]}
{"id": "C114", "title": "A cache of the size its documentation asks for always has room", "statement": "As long as no more items are in use at once than the size a cache was created with, counting the one asked for, a get never fails for want of a node, whichever keys are asked for and whichever threads make the calls.", "quantifier": "every size and concurrency a cache is created with, every number of threads, every interleaving of gets and releases, every key", "why_tests_cant": "whether a get fails depends on which keys are held at the same time; the keys of a test seldom all fall into one shard", "anchors": ["cache.h:41-45", "cache.c:fiftyoneDegreesCacheCreate", "cache.c:fiftyoneDegreesCacheGet", "cache.c:cacheShardCapacity"]}

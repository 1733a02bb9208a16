{
 "claims": [
  {
   "property": "C01",
   "status": "proved",
   "theorems": [
    "Verif.Tree.C01_find",
    "Verif.Tree.C01_count"
   ],
   "note": ""
  },
  {
   "property": "C02",
   "status": "proved",
   "theorems": [
    "Verif.Tree.C02_balanced"
   ],
   "note": ""
  },
  {
   "property": "C03",
   "status": "proved",
   "theorems": [
    "Verif.Tree.C03_iterate"
   ],
   "note": ""
  },
  {
   "property": "C04",
   "status": "proved",
   "theorems": [
    "Verif.Cache.C04_total",
    "Verif.Cache.C04_get",
    "Verif.Cache.C04_loader",
    "Verif.Cache.C04_hash",
    "Verif.Cache.C04_shards",
    "Verif.Cache.C04_cache"
   ],
   "note": ""
  },
  {
   "property": "C05",
   "status": "proved",
   "theorems": [
    "Verif.Cache.C05_kept",
    "Verif.Cache.C05_notEvicted"
   ],
   "note": ""
  },
  {
   "property": "C06",
   "status": "proved",
   "theorems": [
    "Verif.Cache.C06_full",
    "Verif.Cache.C06_oldest"
   ],
   "note": ""
  },
  {
   "property": "C07",
   "status": "partial",
   "theorems": [
    "Verif.Cache.C07_states",
    "Verif.Cache.C07_noLeak",
    "Verif.Cache.C07_counts_partial",
    "Verif.Cache.C07_counts_violated",
    "Verif.Cache.C07_collection_violated"
   ],
   "note": "States, counts and absence of leaks proved for calls on the cache; a failed load through a collection leaks the node (C07_collection_violated) and the counts race between shards (C07_counts_violated)."
  },
  {
   "property": "C08",
   "status": "partial",
   "theorems": [
    "Verif.Cache.C08_shard_partial",
    "Verif.Cache.C08_get_partial",
    "Verif.Cache.C08_release",
    "Verif.Cache.C08_shard_violated"
   ],
   "note": "Proved for all keys whose low 32 bits are not 0x80000000; for that one abs is undefined and the index negative (C08_shard_violated). On the whole cache a get is defined and uses that shard; a release is defined exactly for what is held."
  },
  {
   "property": "C09",
   "status": "partial",
   "theorems": [
    "Verif.Pool.C09_exclusive_partial",
    "Verif.Pool.C09_aba_violated"
   ],
   "note": "Proved for every number of threads and every schedule in which no get is overtaken by 65536 or more exchanges between its read and its exchange; beyond that the 16 bit ABA counter comes round and an item is given twice (C09_aba_violated)."
  },
  {
   "property": "C10",
   "status": "partial",
   "theorems": [
    "Verif.Pool.C10_conserved_partial",
    "Verif.Pool.C10_failed_partial",
    "Verif.Pool.C10_progress_partial",
    "Verif.Pool.C10_lost_violated"
   ],
   "note": "As C09; when the counter comes round an item is lost (C10_lost_violated)."
  },
  {
   "property": "C11",
   "status": "partial",
   "theorems": [
    "Verif.Resource.C11_safe_partial",
    "Verif.Resource.C11_got_partial",
    "Verif.Resource.C11_useAfterFree_violated",
    "Verif.Resource.C11_releaseRead_violated",
    "Verif.Resource.C11_null_violated"
   ],
   "note": "Proved for every schedule under the assumption that freed handle memory keeps its contents. The assumption is needed: C11_useAfterFree_violated and C11_releaseRead_violated give schedules on which freed handles are read, C11_null_violated one on which a get returns NULL."
  },
  {
   "property": "C12",
   "status": "partial",
   "theorems": [
    "Verif.Resource.C12_freed_partial",
    "Verif.Resource.C12_recent_partial",
    "Verif.Resource.C12_installed_partial",
    "Verif.Resource.C12_later_partial",
    "Verif.Resource.C12_lost_violated"
   ],
   "note": "Freeing is proved for every schedule; what a replace installs is proved for replaces that do not overlap. C12_lost_violated: of two overlapping replaces one resource is never installed and never freed."
  },
  {
   "property": "C13",
   "status": "partial",
   "theorems": [
    "Verif.Collection.C13_create",
    "Verif.Collection.C13_loaded",
    "Verif.Collection.C13_item_partial",
    "Verif.Collection.C13_outside_partial",
    "Verif.Collection.C13_outside_owned",
    "Verif.Collection.C13_count",
    "Verif.Collection.C13_header",
    "Verif.Collection.C13_history",
    "Verif.Collection.C13_release",
    "Verif.Collection.C13_short_violated",
    "Verif.Collection.C13_full_violated",
    "Verif.Collection.C13_stale_violated",
    "Verif.Collection.C13_dangling_violated",
    "Verif.Collection.C13_reuse_violated"
   ],
   "note": "All storage strategies (memory, file, partly loaded, cached, partly loaded and cached) are shown to return the item's bytes after any history, to report keys outside with the right exception, and to give back on release what the get took. Open cases, with witnesses: when all nodes of the cache shard are held a get returns NULL without exception (full), or the previous item's pointer in a partly loaded collection (stale); an item is left with a dangling pointer after a failed read (dangling) and after release to a cache (reuse); an item whose size comes out smaller than its header is written outside its memory (short); key 0x80000000 (C08_shard_violated). I/O and allocation failures other than a short file are not modelled here, see C69. Witnesses in which all nodes of a cache are held use a cache smaller than cache.h:41-45 asks for; what they show is that this is not reported. With two or more shards it happens in a cache of that size too (C114)."
  },
  {
   "property": "C14",
   "status": "partial",
   "theorems": [
    "Verif.Search.C14_search_partial",
    "Verif.Search.C14_violated",
    "Verif.Search.C14_failures",
    "Verif.Search.C14_null_violated"
   ],
   "note": "Proved for every collection, range and failing get; the property is violated for the upper index 0xFFFFFFFF (C14_violated) and when a get returns NULL without exception (C14_null_violated). Witnesses in which all nodes of a cache are held use a cache smaller than cache.h:41-45 asks for; what they show is that this is not reported. With two or more shards it happens in a cache of that size too (C114)."
  },
  {
   "property": "C15",
   "status": "partial",
   "theorems": [
    "Verif.Memory.C15_areas",
    "Verif.Memory.C15_items",
    "Verif.Memory.C15_reported",
    "Verif.Memory.C15_header_partial",
    "Verif.Memory.C15_violated",
    "Verif.Memory.C15_counted_partial",
    "Verif.Memory.C15_sized",
    "Verif.Memory.C15_length",
    "Verif.Memory.C15_wrap_violated"
   ],
   "note": "Areas, items and reported lengths proved; violated for an image that ends inside a header (C15_violated) and for counts whose items take 4 GiB or more (C15_wrap_violated)."
  },
  {
   "property": "C16",
   "status": "proved",
   "theorems": [
    "Verif.Str.C16_compare_zero_iff",
    "Verif.Str.C16_compare_neg_iff",
    "Verif.Str.C16_compare_antisymm",
    "Verif.Str.C16_compare_trans",
    "Verif.Str.C16_compareLength_zero_iff",
    "Verif.Str.C16_compareLength_neg_iff",
    "Verif.Str.C16_compareLength_antisymm",
    "Verif.Str.C16_compareLength_trans",
    "Verif.Str.C16_compareLength_stops"
   ],
   "note": ""
  },
  {
   "property": "C17",
   "status": "partial",
   "theorems": [
    "Verif.Str.C17_violated",
    "Verif.Str.C17_subString_partial",
    "Verif.Str.C17_result",
    "Verif.Str.C17_empty_violated"
   ],
   "note": "Code violates the property when the haystack ends inside the needle (C17_violated) and for the empty needle (C17_empty_violated); the rest is proved, and C17_result says exactly what is returned in all cases with a needle."
  },
  {
   "property": "C18",
   "status": "partial",
   "theorems": [
    "Verif.Flt.C18_normal_partial",
    "Verif.Flt.C18_special_partial",
    "Verif.Flt.C18_subnormal_partial",
    "Verif.Flt.C18_stored_partial",
    "Verif.Flt.C18_read_partial",
    "Verif.Flt.C18_subnormal_violated",
    "Verif.Flt.C18_special_violated",
    "Verif.Flt.C18_equal"
   ],
   "note": "Native floats are rationals with a rounding function that is exact on representable values. Conversion is proved for normal numbers; numbers below the stored range are stored as their significand, losing the exponent (C18_subnormal_violated), the signs of minus zero and minus infinity are lost and an infinity is read as NaN (C18_special_violated)."
  },
  {
   "property": "C19",
   "status": "proved",
   "theorems": [
    "Verif.Evidence.C19_iterate",
    "Verif.Evidence.C19_iterate_all",
    "Verif.Evidence.C19_iterate_keeps"
   ],
   "note": ""
  },
  {
   "property": "C20",
   "status": "proved",
   "theorems": [
    "Verif.Evidence.C20_additions",
    "Verif.Evidence.C20_capacity",
    "Verif.Evidence.C20_baseGet"
   ],
   "note": ""
  },
  {
   "property": "C21",
   "status": "proved",
   "theorems": [
    "Verif.Evidence.C21_mapPrefix",
    "Verif.Evidence.C21_unique",
    "Verif.Evidence.C21_prefixString",
    "Verif.Evidence.C21_prefixString_none"
   ],
   "note": ""
  },
  {
   "property": "C22",
   "status": "partial",
   "theorems": [
    "Verif.Headers.C22_segments",
    "Verif.Headers.C22_pieces_spec",
    "Verif.Headers.C22_create",
    "Verif.Headers.C22_no_overflow_partial",
    "Verif.Headers.C22_violated"
   ],
   "note": "Splitting and ids proved; a name that has one segment and a trailing separator overflows the header array (C22_violated)."
  },
  {
   "property": "C23",
   "status": "partial",
   "theorems": [
    "Verif.Headers.C23_headerGetIndex_partial",
    "Verif.Headers.C23_violated",
    "Verif.Headers.C23_plain",
    "Verif.Headers.C23_isHttp_partial",
    "Verif.Headers.C23_uniqueId",
    "Verif.Headers.C23_own_index"
   ],
   "note": "The HTTP_ prefix is not removed when one character follows it (C23_violated); all other names proved."
  },
  {
   "property": "C24",
   "status": "partial",
   "theorems": [
    "Verif.Pseudo.C24_construct_present",
    "Verif.Pseudo.C24_construct_none",
    "Verif.Pseudo.C24_construct_missing_partial",
    "Verif.Pseudo.C24_truncation_violated",
    "Verif.Pseudo.C24_addEvidence_partial",
    "Verif.Pseudo.C24_remove",
    "Verif.Pseudo.C24_remove_add_partial",
    "Verif.Pseudo.C24_capacity_partial",
    "Verif.Pseudo.C24_capacity_violated"
   ],
   "note": "Code violates the property when the value is truncated or the pseudo evidence array is too small (C24_*_violated); the rest is proved under the stated conditions."
  },
  {
   "property": "C25",
   "status": "partial",
   "theorems": [
    "Verif.Overrides.C25_history_partial",
    "Verif.Overrides.C25_map_partial",
    "Verif.Overrides.C25_violated",
    "Verif.Overrides.C25_size_partial",
    "Verif.Overrides.C25_size_violated",
    "Verif.Overrides.C25_hasValue",
    "Verif.Overrides.C25_valuesAdd",
    "Verif.Overrides.C25_reset",
    "Verif.Overrides.C25_extract"
   ],
   "note": "Proved while the array is not full and for values shorter than 32767 characters; violated otherwise (C25_violated, C25_size_violated)."
  },
  {
   "property": "C26",
   "status": "proved",
   "theorems": [
    "Verif.Overrides.C26_text",
    "Verif.Overrides.C26_cut_spec",
    "Verif.Overrides.C26_evidence"
   ],
   "note": ""
  },
  {
   "property": "C27",
   "status": "proved",
   "theorems": [
    "Verif.Properties.C27_create",
    "Verif.Properties.C27_null",
    "Verif.Properties.C27_capacity"
   ],
   "note": ""
  },
  {
   "property": "C28",
   "status": "partial",
   "theorems": [
    "Verif.Properties.C28_lookup_partial",
    "Verif.Properties.C28_roundtrip_partial",
    "Verif.Properties.C28_place",
    "Verif.Properties.C28_unknown",
    "Verif.Properties.C28_violated"
   ],
   "note": "Proved for ASCII names; violated for others, as sorting and searching use different orders (C28_violated)."
  },
  {
   "property": "C29",
   "status": "partial",
   "theorems": [
    "Verif.Profile.C29_values_partial",
    "Verif.Profile.C29_overrun_violated",
    "Verif.Profile.C29_violated"
   ],
   "note": "Proved when the word after the profile can be read; the code reads it (C29_violated)."
  },
  {
   "property": "C30",
   "status": "partial",
   "theorems": [
    "Verif.Profile.C30_lookup_partial",
    "Verif.Profile.C30_violated"
   ],
   "note": "Proved for data sets with profiles and gets that succeed; otherwise NULL is dereferenced (C30_violated)."
  },
  {
   "property": "C31",
   "status": "partial",
   "theorems": [
    "Verif.Ip.C31_anyText",
    "Verif.Ip.C31_malformed_violated",
    "Verif.Ip.C31_anyGroups",
    "Verif.Ip.C31_groups_violated",
    "Verif.Ip.C31_v4",
    "Verif.Ip.C31_clamped",
    "Verif.Ip.C31_v6_full",
    "Verif.Ip.C31_v6_abbreviated",
    "Verif.Ip.C31_bounds_partial",
    "Verif.Ip.C31_violated",
    "Verif.Ip.C31_uninitialised_violated"
   ],
   "note": "Proved for all well formed texts and for all texts without adjacent separators that have no more parts than the address holds; violated beyond (C31_violated) and for texts with fewer parts (C31_uninitialised_violated). For any text at all the result is given by the numbers read from its parts, so malformed texts are accepted (C31_malformed_violated)."
  },
  {
   "property": "C32",
   "status": "proved",
   "theorems": [
    "Verif.Ip.C32_compare",
    "Verif.Ip.C32_invalid"
   ],
   "note": ""
  },
  {
   "property": "C33",
   "status": "partial",
   "theorems": [
    "Verif.Text.C33_lines_partial",
    "Verif.Text.C33_exact_partial",
    "Verif.Text.C33_short_partial",
    "Verif.Text.C33_prefix_partial",
    "Verif.Text.C33_ends",
    "Verif.Text.C33_lost_violated",
    "Verif.Text.C33_empty_violated",
    "Verif.Text.C33_crlf_violated"
   ],
   "note": "Proved for all files: what is delivered are ends of lines, in order, each line at most once (C33_ends). All of it proved for files whose lines fit into the buffer and that either do not end with a line end or are shorter than the buffer. Missing because the code violates it: C33_lost_violated (lines left in the buffer when the last full read ends at the end of the file), C33_empty_violated (byte before the buffer read), C33_crlf_violated (extra empty line)."
  },
  {
   "property": "C34",
   "status": "partial",
   "theorems": [
    "Verif.Memory.C34_totals_partial",
    "Verif.Memory.C34_violated",
    "Verif.Memory.C34_failed_violated"
   ],
   "note": "Proved for blocks below 4 GiB and allocations that succeed; violated otherwise (C34_violated, C34_failed_violated)."
  },
  {
   "property": "C35",
   "status": "proved",
   "theorems": [
    "Verif.Lst.C35_released",
    "Verif.Lst.C35_free",
    "Verif.Lst.C35_reset_used",
    "Verif.Lst.C35_capacity"
   ],
   "note": "Proved for all histories in which a list is initialised and reset only when new or freed, as list.h:156 documents for reset; C35_reset_used shows that the condition is needed."
  },
  {
   "property": "C36",
   "status": "proved",
   "theorems": [
    "Verif.Status.C36_message",
    "Verif.Status.C36_default",
    "Verif.Status.C36_defaultComplete",
    "Verif.Status.C36_codes",
    "Verif.Status.C36_decimal"
   ],
   "note": ""
  },
  {
   "property": "C37",
   "status": "partial",
   "theorems": [
    "Verif.DataSet.C37_usable_partial",
    "Verif.DataSet.C37_same",
    "Verif.DataSet.C37_failed",
    "Verif.DataSet.C37_noLeak_partial",
    "Verif.DataSet.C37_later_partial",
    "Verif.DataSet.C37_reloadRead_partial",
    "Verif.DataSet.C37_reloadRead_violated"
   ],
   "note": "Proved for every schedule of gets, releases, reloads and failures, with the exceptions shown: C37_reloadRead_violated (a reload reads the active data set without holding it) and lost replacements (C12). A failed initialisation from a file is taken to free the data set, as its contract in dataset.h:156-160 requires; the reload function does not free it itself."
  },
  {
   "property": "C38",
   "status": "proved",
   "theorems": [
    "Verif.Data.C38_requests",
    "Verif.Data.C38_reuse",
    "Verif.Data.C38_no_leak"
   ],
   "note": ""
  },
  {
   "property": "C39",
   "status": "proved",
   "theorems": [
    "Verif.Signal.C39_order",
    "Verif.Signal.C39_once",
    "Verif.Signal.C39_wakes",
    "Verif.Signal.C39_ends",
    "Verif.Signal.C39_count"
   ],
   "note": ""
  },
  {
   "property": "C40",
   "status": "partial",
   "theorems": [
    "Verif.Component.C40_pairs_partial",
    "Verif.Component.C40_violated"
   ],
   "note": "Proved for all indexes except the one equal to the count, for which no exception is set (C40_violated)."
  },
  {
   "property": "C41",
   "status": "partial",
   "theorems": [
    "Verif.Config.C41_list_partial",
    "Verif.Config.C41_text_partial",
    "Verif.Config.C41_later_partial",
    "Verif.Config.C41_count_partial",
    "Verif.Config.C41_none",
    "Verif.Config.C41_count_violated",
    "Verif.Config.C41_again_violated"
   ],
   "note": "Violated: the RequiredPropertiesConfig count differs from the number of properties the engine selects when the text has separators that it does not split at, and getCount/array are wrong when the configuration is asked again; proved for texts whose only separators are commas."
  },
  {
   "property": "C42",
   "status": "partial",
   "theorems": [
    "Verif.Lookup.C42_ip_partial",
    "Verif.Lookup.C42_notAddress_partial",
    "Verif.Lookup.C42_coordinate",
    "Verif.Lookup.C42_notCoordinate",
    "Verif.Lookup.C42_getByName",
    "Verif.Lookup.C42_noValues",
    "Verif.Lookup.C42_memory_violated",
    "Verif.Lookup.C42_name_violated",
    "Verif.Lookup.C42_malformed_violated",
    "Verif.Profile.C42_string"
   ],
   "note": "Proved for all stored formats under ordered values; violated for unparsable addresses, no memory and names that cannot be got (C42_*_violated). Witnesses in which all nodes of a cache are held use a cache smaller than cache.h:41-45 asks for; what they show is that this is not reported. With two or more shards it happens in a cache of that size too (C114)."
  },
  {
   "property": "C43",
   "status": "partial",
   "theorems": [
    "Verif.File.C43_name",
    "Verif.File.C43_fileName_partial",
    "Verif.File.C43_fileName_violated",
    "Verif.File.C43_baseName_partial",
    "Verif.File.C43_baseName_slash_violated",
    "Verif.File.C43_baseName_violated",
    "Verif.File.C43_stem_partial",
    "Verif.File.C43_stem_safe",
    "Verif.File.C43_stem_violated",
    "Verif.File.C43_create",
    "Verif.File.C43_create_violated",
    "Verif.File.C43_temp_partial",
    "Verif.File.C43_tempName_partial",
    "Verif.File.C43_tempName_failed",
    "Verif.File.C43_working",
    "Verif.File.C43_tempName_outside",
    "Verif.File.C43_temp_violated",
    "Verif.File.C43_order_violated",
    "Verif.File.C43_overflow_violated",
    "Verif.File.C43_truncated_violated",
    "Verif.File.C43_random_violated"
   ],
   "note": "Violated: exported FileGetFileName cuts the first character of a path without slash; base name of a plain name is NULL; stem of a name without extension in a directory with a dot fails; the newer temp file function reports only the result for the last directory, leaking copies; a directory exactly as long as the memory overflows it. The older function is proved in full. When random strings fail after a used name, that name stays in the destination (C43_random_violated)."
  },
  {
   "property": "C44",
   "status": "partial",
   "theorems": [
    "Verif.Memory.C44_partial",
    "Verif.Memory.C44_violated"
   ],
   "note": "The reserved size is at least n; it is not always a multiple of the alignment (C44_violated)."
  },
  {
   "property": "C45",
   "status": "partial",
   "theorems": [
    "Verif.Value.C45_string",
    "Verif.Value.C45_bool",
    "Verif.Value.C45_double",
    "Verif.Value.C45_reads",
    "Verif.Value.C45_integer_partial",
    "Verif.Value.C45_values",
    "Verif.Value.C45_message_partial",
    "Verif.Value.C45_default",
    "Verif.Value.C45_message_violated",
    "Verif.Value.C45_overflow_violated"
   ],
   "note": "Violated: the message is dropped for some reasons of a missing value, and integers beyond the range overflow in atoi; the remaining parts are proved."
  },
  {
   "property": "C46",
   "status": "partial",
   "theorems": [
    "Verif.Overrides.C46_plain",
    "Verif.Overrides.C46_unprefixed",
    "Verif.Overrides.C46_prefixed_partial",
    "Verif.Overrides.C46_violated",
    "Verif.Overrides.C46_overridable"
   ],
   "note": "Proved but for property names of one character after the prefix (C46_violated)."
  },
  {
   "property": "C47",
   "status": "proved",
   "theorems": [
    "Verif.Overrides.C47_overriding"
   ],
   "note": ""
  },
  {
   "property": "C48",
   "status": "partial",
   "theorems": [
    "Verif.Properties.C48_setHeader_partial",
    "Verif.Properties.C48_violated"
   ],
   "note": "Proved for lists in which no name is a proper beginning of SetHeader of the kind C17 mistakes for it (C48_violated)."
  },
  {
   "property": "C49",
   "status": "partial",
   "theorems": [
    "Verif.Profile.C49_profiles_partial",
    "Verif.Profile.C49_none",
    "Verif.Profile.C49_overrun_violated",
    "Verif.Profile.C49_violated"
   ],
   "note": "Exact: hasValue_exact says for which profiles the search for the value reads the word after the profile; when that cannot be read it is undefined (C49_overrun_violated)."
  },
  {
   "property": "C50",
   "status": "proved",
   "theorems": [
    "Verif.Profile.C50_property"
   ],
   "note": ""
  },
  {
   "property": "C51",
   "status": "partial",
   "theorems": [
    "Verif.Component.C51_list",
    "Verif.Component.C51_items",
    "Verif.Component.C51_beyond",
    "Verif.Record.C51_collection_partial",
    "Verif.Record.C51_collection_beyond",
    "Verif.Record.C51_endless_violated"
   ],
   "note": "Besides the list over plain bytes, proved for collections of any kind of storage and with the release of the list. With fewer nodes in the cache than components, filling the list never ends (C51_endless_violated): the get returns NULL without an exception and the loop tries again. Witnesses in which all nodes of a cache are held use a cache smaller than cache.h:41-45 asks for; what they show is that this is not reported. With two or more shards it happens in a cache of that size too (C114)."
  },
  {
   "property": "C52",
   "status": "partial",
   "theorems": [
    "Verif.Ip.C52_single_partial",
    "Verif.Ip.C52_rows",
    "Verif.Ip.C52_violated"
   ],
   "note": "Proved for single separators; more separators in a row give extra invalid addresses (C52_violated), and C52_rows says exactly which for any row of separators."
  },
  {
   "property": "C53",
   "status": "partial",
   "theorems": [
    "Verif.Ip.C53_empty_partial",
    "Verif.Ip.C53_violated"
   ],
   "note": "Proved for empty lists only; for others the pointer freed is not the one allocated (C53_violated)."
  },
  {
   "property": "C54",
   "status": "partial",
   "theorems": [
    "Verif.Cache.C54_capacity_partial",
    "Verif.Cache.C54_below_partial",
    "Verif.Cache.C54_capacity_violated"
   ],
   "note": "Proved whenever the shards together have fewer than 2^31 nodes, so for all capacities below 2^30; the int32_t capacity overflows above (C54_capacity_violated)."
  },
  {
   "property": "C55",
   "status": "partial",
   "theorems": [
    "Verif.Pool.C55_freed_partial",
    "Verif.Pool.C55_wraps_violated"
   ],
   "note": "Proved for concurrency below 65535, for which the item count wraps to 0 (C55_wraps_violated)."
  },
  {
   "property": "C56",
   "status": "partial",
   "theorems": [
    "Verif.File.C56_copy_partial",
    "Verif.File.C56_read_violated",
    "Verif.File.C56_seek_violated",
    "Verif.File.C56_self_violated"
   ],
   "note": "Proved for files that can be read and seeked; violated when a read fails (reported as success), when the size cannot be determined (empty copy, success) and when source and destination are the same (emptied, success). Streams are taken as unbuffered here; for the buffer see C113."
  },
  {
   "property": "C57",
   "status": "partial",
   "theorems": [
    "Verif.File.C57_existing_partial",
    "Verif.File.C57_same",
    "Verif.File.C57_missed_violated",
    "Verif.File.C57_overflow_violated",
    "Verif.File.C57_empty_violated",
    "Verif.File.C57_directory_violated",
    "Verif.File.C57_entry_violated",
    "Verif.File.C57_working_violated",
    "Verif.File.C57_working_partial"
   ],
   "note": "Proved for the first directory and comparisons of at most 1024 bytes at once; violated: only the first directory is searched; larger comparisons overflow the buffers; any file counts as a copy of an empty master. Directories and entries too long for the path buffer are left out, and with no directories nothing is ever found."
  },
  {
   "property": "C58",
   "status": "partial",
   "theorems": [
    "Verif.File.C58_delete_partial",
    "Verif.File.C58_master",
    "Verif.File.C58_missed_violated",
    "Verif.File.C58_backup_violated",
    "Verif.File.C58_count_violated"
   ],
   "note": "Proved for the first directory and less than 256 files; violated: other directories are not searched, the number wraps at 256, backups and files that only agree in the compared bytes are deleted."
  },
  {
   "property": "C59",
   "status": "partial",
   "theorems": [
    "Verif.File.C59_path_partial",
    "Verif.File.C59_noDirectory",
    "Verif.File.C59_deep_violated",
    "Verif.File.C59_root_violated"
   ],
   "note": "Proved but for the root directory, which is never searched (violated); directories so deep that the path does not fit are given up on (C59_deep_violated)."
  },
  {
   "property": "C60",
   "status": "partial",
   "theorems": [
    "Verif.Yaml.C60_documents_partial",
    "Verif.Yaml.C60_buffer",
    "Verif.Yaml.C60_lastLine",
    "Verif.Yaml.C60_full_violated",
    "Verif.Yaml.C60_cut_violated",
    "Verif.Yaml.C60_dot_violated",
    "Verif.Yaml.C60_quote_violated",
    "Verif.Yaml.C60_empty_violated",
    "Verif.Yaml.C60_blank_violated",
    "Verif.Yaml.C60_stale_violated",
    "Verif.Yaml.C60_start_violated"
   ],
   "note": "Proved for files in the documented format that fit; the violated theorems show each way in which the conditions are needed."
  },
  {
   "property": "C61",
   "status": "partial",
   "theorems": [
    "Verif.Yaml.C61_limit_partial",
    "Verif.Yaml.C61_none",
    "Verif.Yaml.C61_zero_violated"
   ],
   "note": "Proved for all limits except zero (C61_zero_violated)."
  },
  {
   "property": "C62",
   "status": "partial",
   "theorems": [
    "Verif.Engine.C62_headerKeys",
    "Verif.Engine.C62_overrideKeys",
    "Verif.Engine.C62_header_partial",
    "Verif.Engine.C62_header_violated",
    "Verif.Engine.C62_override_partial",
    "Verif.Engine.C62_override_violated"
   ],
   "note": "The keys are proved to be exactly those; that they lead back is proved but for names of one character (C62_header_violated, C62_override_violated)."
  },
  {
   "property": "C63",
   "status": "proved",
   "theorems": [
    "Verif.Engine.C63_less",
    "Verif.Engine.C63_equal",
    "Verif.Engine.C63_order"
   ],
   "note": ""
  },
  {
   "property": "C64",
   "status": "partial",
   "theorems": [
    "Verif.Engine.C64_v4",
    "Verif.Engine.C64_v6",
    "Verif.Engine.C64_v6_abbreviated",
    "Verif.Engine.C64_bytes",
    "Verif.Engine.C64_copy_partial",
    "Verif.Engine.C64_copy_violated",
    "Verif.Engine.C64_uninitialised_violated"
   ],
   "note": "Parsing and construction proved; the copy uses the enum value as a length (C64_copy_violated) and IPv4 objects are not initialised in full (C64_uninitialised_violated)."
  },
  {
   "property": "C65",
   "status": "partial",
   "theorems": [
    "Verif.Engine.C65_directories",
    "Verif.Engine.C65_freed_partial",
    "Verif.Engine.C65_leak_violated"
   ],
   "note": "The directories are proved to reach the C configuration; arrays set earlier leak (C65_leak_violated)."
  },
  {
   "property": "C66",
   "status": "partial",
   "theorems": [
    "Verif.Engine.C66_message_partial",
    "Verif.Engine.C66_clear_violated",
    "Verif.Engine.C66_okay",
    "Verif.Engine.C66_status",
    "Verif.Engine.C66_fatal_violated"
   ],
   "note": "Messages and codes proved for exceptions that are set; violated for clear exceptions and for the code of exceptions thrown by the C++ macro (C66_clear_violated, C66_fatal_violated)."
  },
  {
   "property": "C67",
   "status": "partial",
   "theorems": [
    "Verif.Engine.C67_properties",
    "Verif.Engine.C67_outside",
    "Verif.Engine.C67_contains_partial",
    "Verif.Engine.C67_violated"
   ],
   "note": "Proved for all names; containsProperty only for ASCII names, because of C28 (C67_violated)."
  },
  {
   "property": "C68",
   "status": "partial",
   "theorems": [
    "Verif.Life.C68_structs",
    "Verif.Life.C68_create_partial",
    "Verif.Life.C68_kind",
    "Verif.Life.C68_leak_violated",
    "Verif.Life.C68_noMemory_violated",
    "Verif.Life.C68_noMemory_memory_violated",
    "Verif.Life.C68_seek_violated",
    "Verif.Life.C68_memory_partial"
   ],
   "note": "Proved if the structures can be allocated, the cache is possible, and the first seek succeeds when items are to be loaded; otherwise the code leaks (C68_leak_violated) or dereferences NULL (C68_noMemory_violated, C68_noMemory_memory_violated, C68_seek_violated)."
  },
  {
   "property": "C69",
   "status": "partial",
   "theorems": [
    "Verif.Life.C69_fixed_partial",
    "Verif.Life.C69_variable_partial",
    "Verif.Life.C69_exceptions",
    "Verif.Life.C69_stale_violated",
    "Verif.Life.C69_stale_fixed_violated",
    "Verif.Life.C69_reuse_violated"
   ],
   "note": "Proved if the exception is clear when called and the data is not left over from a failed read; otherwise a handle is lost (C69_stale_violated, C69_stale_fixed_violated) or freed memory is written (C69_reuse_violated)."
  },
  {
   "property": "C70",
   "status": "partial",
   "theorems": [
    "Verif.Work.C70_direct",
    "Verif.Work.C70_long",
    "Verif.Work.C70_keeps_partial",
    "Verif.Work.C70_restored_partial",
    "Verif.Work.C70_copy_partial",
    "Verif.Work.C70_reuse_partial",
    "Verif.Work.C70_shared_violated",
    "Verif.Work.C70_backup_violated",
    "Verif.Work.C70_left_violated",
    "Verif.Work.C70_random_violated",
    "Verif.Work.C70_reset",
    "Verif.Work.C70_reset_violated"
   ],
   "note": "Proved for data sets without temporary file, and with new temporary files in any number of directories that no existing file is changed, with at most one directory also that everything is restored. Violated: reused temporary files are deleted under other data sets (C70_shared_violated) or are the user's own (C70_backup_violated), copies are left behind with several directories (C70_left_violated), a foreign file is deleted after a failing random name (C70_random_violated), and a data set that was only reset cannot be freed (C70_reset_violated)."
  },
  {
   "property": "C71",
   "status": "partial",
   "theorems": [
    "Verif.Work.C71_read_partial",
    "Verif.Work.C71_empty_violated",
    "Verif.Work.C71_tracking_violated",
    "Verif.Work.C71_write_partial",
    "Verif.Work.C71_roundtrip",
    "Verif.Work.C71_write_empty_violated",
    "Verif.Work.C71_write_left_violated",
    "Verif.Work.C71_memory",
    "Verif.Work.C71_pool_partial",
    "Verif.Work.C71_pool_violated"
   ],
   "note": "Proved but for empty files and data, which are reported as failures (C71_empty_violated, C71_write_empty_violated), the tracked memory after a failed read (C71_tracking_violated), the part left by a failed write (C71_write_left_violated), and pools of files that cannot be positioned (C71_pool_violated). Streams are taken as unbuffered here; for the buffer see C113."
  },
  {
   "property": "C72",
   "status": "partial",
   "theorems": [
    "Verif.Record.C72_string_partial",
    "Verif.Record.C72_component_partial",
    "Verif.Record.C72_profile_partial",
    "Verif.Record.C72_string_violated",
    "Verif.Record.C72_string_negative",
    "Verif.Record.C72_profile_violated",
    "Verif.Record.C72_integer_partial",
    "Verif.Record.C72_integer_outside"
   ],
   "note": "Proved for every kind of storage but for a cache with a shard all of whose nodes are held (C13_full_violated) and the key 0x80000000 of a cache (C08_shard_violated). Violated for a file with a string of length -1 or -2, which is written past its memory (C72_string_violated), and with a profile of 2^30 values, which is taken for one of 9 bytes (C72_profile_violated)."
  },
  {
   "property": "C73",
   "status": "partial",
   "theorems": [
    "Verif.Record.C73_offset_partial",
    "Verif.Record.C73_id_partial",
    "Verif.Record.C73_id_outside_partial",
    "Verif.Record.C73_index_partial",
    "Verif.Record.C73_index_outside",
    "Verif.Record.C73_wrong_violated"
   ],
   "note": "Proved when no shard of the caches has all of its nodes held; otherwise a search can return the offset of another profile without an exception (C73_wrong_violated). An empty table is C30_violated. Witnesses in which all nodes of a cache are held use a cache smaller than cache.h:41-45 asks for; what they show is that this is not reported. With two or more shards it happens in a cache of that size too (C114)."
  },
  {
   "property": "C74",
   "status": "proved",
   "theorems": [
    "Verif.Collection.C74_room",
    "Verif.Collection.C74_held"
   ],
   "note": "One caller at a time: the interleavings of threads in the cache are C01. Whether the get of a cached item returns something at all is C13; C74_room says that it does while the number of items held stays below the nodes of a shard."
  },
  {
   "property": "C75",
   "status": "partial",
   "theorems": [
    "Verif.Record.C75_profiles_partial",
    "Verif.Record.C75_outside_partial",
    "Verif.Record.C75_skipped_violated",
    "Verif.Record.C75_leak_violated",
    "Verif.Record.C75_free_violated",
    "Verif.Record.C75_release_violated",
    "Verif.Record.C75_uninitialised_violated",
    "Verif.Record.C75_overrun_violated"
   ],
   "note": "Proved when releasing with the collection of the offsets is right for the profiles: both in the file, both cached, both in memory, or the offsets partly loaded. In the other combinations profiles are left out, memory is lost, or memory of the cache is freed, since the profile's item is released with the wrong collection. Profiles for which the search reads past the end are C49. With the profiles in memory and the offsets in the file or cached, a handle that was never set is released. The handles of local items before they are set are arbitrary in the model. Witnesses in which all nodes of a cache are held use a cache smaller than cache.h:41-45 asks for; what they show is that this is not reported. With two or more shards it happens in a cache of that size too (C114)."
  },
  {
   "property": "C76",
   "status": "partial",
   "theorems": [
    "Verif.Avail.C76_balance",
    "Verif.Avail.C76_create_partial",
    "Verif.Avail.C76_overflow_violated",
    "Verif.Avail.C76_collection_violated"
   ],
   "note": "C76_balance is the full claim for what is held, whatever fails, wherever creation is defined. C76_create_partial (defined, complete and right) needs every read to succeed: a read that fails while the matches are counted and not when they are added makes the second pass write beyond the list. Freeing needs the names to be of a collection: a source without one is handled when names are looked up but not when the list is freed."
  },
  {
   "property": "C77",
   "status": "partial",
   "theorems": [
    "Verif.Avail.C77_success",
    "Verif.Avail.C77_codes_partial",
    "Verif.Avail.C77_name_violated",
    "Verif.Avail.C77_two_violated",
    "Verif.Avail.C77_memory_violated",
    "Verif.Avail.C77_fewer_violated",
    "Verif.Avail.C77_index_violated"
   ],
   "note": "C77_success is exact whatever fails. The reasons are exact if every read succeeds, except that a lack of memory for the list is reported as a property not present. A name that cannot be read is compared before it is checked."
  },
  {
   "property": "C78",
   "status": "partial",
   "theorems": [
    "Verif.HeadersMem.C78_made",
    "Verif.HeadersMem.C78_null_partial",
    "Verif.HeadersMem.C78_create_partial",
    "Verif.HeadersMem.C78_leak_violated",
    "Verif.HeadersMem.C78_overflow_violated",
    "Verif.HeadersMem.C78_status_violated",
    "Verif.HeadersMem.C78_status"
   ],
   "note": "C78_made is full for headers that are made. When creation fails, at most one item and one block are lost (C78_null_partial, exact witnesses in C78_leak_violated). That creation is defined and gives the headers of C22 needs every read to succeed (C78_create_partial)."
  },
  {
   "property": "C79",
   "status": "partial",
   "theorems": [
    "Verif.OverridesMem.C79_values",
    "Verif.OverridesMem.C79_last",
    "Verif.OverridesMem.C79_free",
    "Verif.OverridesMem.C79_create",
    "Verif.OverridesMem.C79_defined_partial",
    "Verif.OverridesMem.C79_alloc_violated",
    "Verif.OverridesMem.C79_pointer_partial",
    "Verif.OverridesMem.C79_reuse",
    "Verif.OverridesMem.C79_pointer_violated"
   ],
   "note": "C79_values, C79_last, C79_reuse, C79_free and C79_create are full: they hold for every pattern of failing allocations as long as behaviour is defined. Definedness needs memory (C79_defined_partial): a failed allocation makes the copy write through NULL (C79_alloc_violated). Pointers given out stay valid while only other properties are added to (C79_pointer_partial) and dangle after a longer value for the same property (C79_pointer_violated). Texts are C strings whose buffer size fits uint32_t."
  },
  {
   "property": "C80",
   "status": "partial",
   "theorems": [
    "Verif.Record.C80_property_partial",
    "Verif.Record.C80_valueType_partial",
    "Verif.Record.C80_defaultProfile_partial",
    "Verif.Record.C80_valueType_outside",
    "Verif.Record.C80_wrong_violated",
    "Verif.Record.C80_leak_violated",
    "Verif.Record.C80_free_violated",
    "Verif.Record.C80_release_violated",
    "Verif.Record.C80_uninitialised_violated"
   ],
   "note": "Proved when releasing with the collection of the properties is right for the strings: both in the file, both cached, both in memory, or the properties partly loaded. In the other combinations the wrong property is returned, memory is lost, or memory of the cache is freed, since the name's item is released with the wrong collection. Also the value type of a property and the id of the default profile of a component. With the strings in memory and the properties in the file or cached, a handle that was never set is released. The handles of items before they are set are arbitrary in the model. Witnesses in which all nodes of a cache are held use a cache smaller than cache.h:41-45 asks for; what they show is that this is not reported. With two or more shards it happens in a cache of that size too (C114)."
  },
  {
   "property": "C81",
   "status": "partial",
   "theorems": [
    "Verif.Record.C81_index_partial",
    "Verif.Record.C81_text_partial",
    "Verif.Record.C81_value_partial",
    "Verif.Record.C81_full_violated",
    "Verif.Record.C81_held_violated",
    "Verif.Record.C81_empty_violated"
   ],
   "note": "Proved for values and strings kept in any way, by simulation of the search of C42, for names of all three formats. Not for properties without values (undefined unless in memory), for names outside of the strings (the value's item is lost) and for a full cache of strings (a wrong value is found). Witnesses in which all nodes of a cache are held use a cache smaller than cache.h:41-45 asks for; what they show is that this is not reported. With two or more shards it happens in a cache of that size too (C114)."
  },
  {
   "property": "C82",
   "status": "partial",
   "theorems": [
    "Verif.Record.C82_text_partial",
    "Verif.Record.C82_outside_partial",
    "Verif.Record.C82_layout",
    "Verif.Record.C82_field_partial",
    "Verif.Record.C82_coordinate_partial",
    "Verif.Record.C82_full_violated",
    "Verif.Record.C82_format_violated",
    "Verif.Record.C82_null_violated"
   ],
   "note": "Proved for strings kept in any way. Not for a full cache (an empty text), for coordinates and addresses read as texts (read past the end), and for the item of a failed get (NULL is followed). Witnesses in which all nodes of a cache are held use a cache smaller than cache.h:41-45 asks for; what they show is that this is not reported. With two or more shards it happens in a cache of that size too (C114)."
  },
  {
   "property": "C83",
   "status": "partial",
   "theorems": [
    "Verif.Record.C83_profiles_partial",
    "Verif.Record.C83_wrong_violated",
    "Verif.Record.C83_uninitialised_violated",
    "Verif.Record.C83_missed_violated",
    "Verif.Record.C83_empty_violated"
   ],
   "note": "Proved for the combinations of storage of C75 and C80, for properties with at least one value, when the search in each profile ends within it. Otherwise: the profiles of another property are reported, profiles are left out, or an item that was never set is released. Witnesses in which all nodes of a cache are held use a cache smaller than cache.h:41-45 asks for; what they show is that this is not reported. With two or more shards it happens in a cache of that size too (C114)."
  },
  {
   "property": "C84",
   "status": "partial",
   "theorems": [
    "Verif.Record.C84_values_partial",
    "Verif.Record.C84_outside",
    "Verif.Record.C84_skipped_violated",
    "Verif.Record.C84_overrun_violated"
   ],
   "note": "Proved for values kept in any way, with room in the cache for all the items, as the callback keeps them. With too few free nodes values are silently left out. When the last value of the profile is one of the property the word after the profile is read (C29). Witnesses in which all nodes of a cache are held use a cache smaller than cache.h:41-45 asks for; what they show is that this is not reported. With two or more shards it happens in a cache of that size too (C114)."
  },
  {
   "property": "C85",
   "status": "partial",
   "theorems": [
    "Verif.File.C85_inUse_partial",
    "Verif.File.C85_unknown",
    "Verif.File.C85_suffix_violated",
    "Verif.File.C85_relative_violated",
    "Verif.File.C85_long_violated",
    "Verif.File.C85_null_violated",
    "Verif.File.C85_kept_partial",
    "Verif.File.C85_deleted_violated"
   ],
   "note": "Proved: in use exactly when the path is the end of the path of something open, so that a file open under its own path is kept. Violated: the end of another path counts; relative or otherwise written paths are missed, and the file deleted; a link of 4096 bytes makes a write after the buffer; closedir(NULL) for every entry that is no process."
  },
  {
   "property": "C86",
   "status": "partial",
   "theorems": [
    "Verif.Memory.Threads.C86_totals_partial",
    "Verif.Memory.Threads.C86_defined_partial",
    "Verif.Memory.Threads.C86_max_partial",
    "Verif.Memory.Threads.C86_again",
    "Verif.Memory.Threads.C86_off_partial",
    "Verif.Memory.Threads.C86_leaks_partial",
    "Verif.Memory.Threads.C86_first_partial",
    "Verif.Memory.Threads.C86_init_violated",
    "Verif.Memory.Threads.C86_reset_violated",
    "Verif.Memory.Threads.C86_stale_violated"
   ],
   "note": "Steps are the sections under a lock and the calls of the system's allocator, which gives any address not in use. Partial: the first calls by two threads at once (not with MemoryTrackingReset called first, as memory.h:153-157 asks), turning tracking on with blocks in use and a record left by a free without tracking give wrong totals; blocks of 4 GiB or more are C34. Aligned allocation differs in the size recorded only (C33, C34). Allocation failure is not followed here."
  },
  {
   "property": "C87",
   "status": "partial",
   "theorems": [
    "Verif.Cache.Threads.C87_serial",
    "Verif.Cache.Threads.C87_exclusive",
    "Verif.Cache.Threads.C87_data",
    "Verif.Cache.Threads.C87_get",
    "Verif.Cache.Threads.C87_progress",
    "Verif.Cache.Threads.C87_ends",
    "Verif.Cache.Threads.C87_answers",
    "Verif.Cache.Threads.C87_loader",
    "Verif.Cache.Threads.C87_quiet",
    "Verif.Cache.Threads.C87_counts_partial",
    "Verif.Cache.Threads.C87_counts_violated"
   ],
   "note": "A function of the tree or of the list and the loader are one step each, all under the lock of the shard; accesses to the counts are steps of their own. Programs release only nodes they were given. Partial: the counts lose updates with more than one shard; memory is sequentially consistent; the lock is a mutex that is always given to some thread that waits (fairness is not modelled)."
  },
  {
   "property": "C88",
   "status": "proved",
   "theorems": [
    "Verif.Collection.Reading.C88_alone",
    "Verif.Collection.Reading.C88_item",
    "Verif.Collection.Reading.C88_exclusive",
    "Verif.Collection.Reading.C88_returned",
    "Verif.Collection.Reading.C88_enough",
    "Verif.Collection.Reading.C88_answers",
    "Verif.Collection.Reading.C88_ends",
    "Verif.Collection.Reading.C88_progress"
   ],
   "note": "Getting a handle from the pool and giving it back are one step each, as C09 and C10 prove of the pool. The positions of two open files are independent; the file does not change while it is open. Failure to allocate the item is not a case here."
  },
  {
   "property": "C89",
   "status": "proved",
   "theorems": [
    "Verif.Collection.Threads.C89_bytes",
    "Verif.Collection.Threads.C89_item",
    "Verif.Collection.Threads.C89_answers",
    "Verif.Collection.Threads.C89_none",
    "Verif.Collection.Threads.C89_gives",
    "Verif.Collection.Threads.C89_progress",
    "Verif.Collection.Threads.C89_ends",
    "Verif.Collection.Threads.C89_quiet"
   ],
   "note": "Bounds of C87 and C88 apply: steps of the tree, of the list and of the pool are one step each, memory is sequentially consistent. Programs release each item once. That nodes whose load failed stay in use for ever is C07_collection_violated. Failure to allocate is not a case here. The key 0x80000000 is undefined in the choice of the shard (C08_shard_violated)."
  },
  {
   "property": "C90",
   "status": "partial",
   "theorems": [
    "Verif.Owner.C90_owned_partial",
    "Verif.Owner.C90_freed_partial",
    "Verif.Owner.C90_again",
    "Verif.Owner.C90_ready",
    "Verif.Owner.C90_defined",
    "Verif.Owner.C90_lost_violated",
    "Verif.Owner.C90_twice_violated",
    "Verif.Owner.C90_config_violated"
   ],
   "note": "Only what is owned: the statuses are C71, C77 and C78, the working file is C70. At most 65534 files in the pool (C55_wraps_violated). Names must be of a collection (C76_collection_violated). What is lost when headers cannot be had is bounded by one item and one block each time."
  },
  {
   "property": "C91",
   "status": "partial",
   "theorems": [
    "Verif.Requests.C91_data",
    "Verif.Requests.C91_alive_partial",
    "Verif.Requests.C91_stays",
    "Verif.Requests.C91_version",
    "Verif.Requests.C91_item",
    "Verif.Requests.C91_apart",
    "Verif.Requests.C91_freed",
    "Verif.Requests.C91_progress",
    "Verif.Requests.C91_later_partial",
    "Verif.Requests.C91_null_violated"
   ],
   "note": "Partial: two reloads during a get can make the get return NULL (C91_null_violated); C91_later_partial assumes no other reload at the same time, as C37. A program thread with several requests is several threads of the model. One cached collection for each data set; its other collections are read uncached."
  },
  {
   "property": "C92",
   "status": "proved",
   "theorems": [
    "Verif.Single.C92_defined",
    "Verif.Single.C92_get",
    "Verif.Single.C92_held",
    "Verif.Single.C92_calls",
    "Verif.Single.C92_exact",
    "Verif.Single.C92_memory",
    "Verif.Single.C92_clean",
    "Verif.Single.C92_limit"
   ],
   "note": "Full for one manager, under the contract in the statement. Allocation of a handle is taken to succeed: setupResource writes through the result of MallocAligned without a check. C92_limit shows that the bound on the number of handles is needed."
  },
  {
   "property": "C93",
   "status": "proved",
   "theorems": [
    "Verif.Single.C93_defined",
    "Verif.Single.C93_get",
    "Verif.Single.C93_conserved",
    "Verif.Single.C93_resource",
    "Verif.Single.C93_capacity"
   ],
   "note": "Full for up to 65534 users; at 65535 PoolInit itself is undefined (C55_wraps_violated). Unlike the threaded build (C09, C10) there is no limit from the ABA counter."
  },
  {
   "property": "C94",
   "status": "partial",
   "theorems": [
    "Verif.Quiet.C94_fields_file_partial",
    "Verif.Quiet.C94_offset_violated",
    "Verif.Quiet.C94_lookup_file_partial",
    "Verif.Quiet.C94_rest_partial",
    "Verif.Quiet.C94_rest_violated",
    "Verif.Quiet.C94_get_partial",
    "Verif.Quiet.C94_file_partial",
    "Verif.Quiet.C94_fields_partial",
    "Verif.Quiet.C94_value_partial",
    "Verif.Quiet.C94_offset_partial",
    "Verif.Quiet.C94_profile_partial",
    "Verif.Quiet.C94_property_partial",
    "Verif.Quiet.C94_list_partial",
    "Verif.Quiet.C94_memory_violated",
    "Verif.Quiet.C94_remembered_violated",
    "Verif.Quiet.C94_wrong_violated",
    "Verif.Quiet.C94_dangling_violated",
    "Verif.Quiet.C94_endless_violated"
   ],
   "note": "Proved whenever the call with a structure reports no exception, for all kinds of collections and all the look-ups, and for failing gets from the file and from the part that is not loaded, fields and look-ups by id included. Otherwise violated: a key outside of a collection in memory is undefined (C94_memory_violated), a cached collection remembers the failure (C94_remembered_violated), a failing read of what is not loaded returns a pointer to freed memory (C94_rest_violated), a failing read of an offset is undefined even with a structure (C94_offset_violated), look-ups by name return a value or property whose name could not be read (C94_wrong_violated) or a pointer to freed memory (C94_dangling_violated), and the list of components never ends (C94_endless_violated)."
  },
  {
   "property": "C95",
   "status": "partial",
   "theorems": [
    "Verif.Quiet.C95_same_partial",
    "Verif.Quiet.C95_seen_partial",
    "Verif.Quiet.C95_loaded_partial",
    "Verif.Quiet.C95_handles_violated",
    "Verif.Quiet.C95_outside",
    "Verif.Quiet.C95_nodes_violated"
   ],
   "note": "That nothing more is reported is proved for all kinds of collections, and that nothing is lost for offsets in memory or in the loaded part. Violated for offsets in the file, where each of the remaining offsets costs a file handle for good, with the exact number, and the exception reported becomes INSUFFICIENT_HANDLES when there are none left (C95_handles_violated), and for cached offsets, where nodes of the cache are lost too (C95_nodes_violated)."
  },
  {
   "property": "C96",
   "status": "partial",
   "theorems": [
    "Verif.Collection.C96_null",
    "Verif.Collection.C96_item",
    "Verif.Collection.C96_outside",
    "Verif.Collection.C96_count",
    "Verif.Collection.C96_same",
    "Verif.Collection.C96_over_violated",
    "Verif.Life.C96_free_partial",
    "Verif.Life.C96_counted_violated",
    "Verif.Life.C96_noMemory_violated"
   ],
   "note": "Items, errors, counts and the condition for NULL are proved without restriction on well formed files. Violated: an item that does not end within the collection is given with less memory than it has bytes (C96_over_violated); after a failed seek or read the memory is given back with free instead of Free, so that the tracker counts it for ever (C96_counted_violated); NULL is dereferenced when the structures cannot be allocated (C96_noMemory_violated)."
  },
  {
   "property": "C97",
   "status": "partial",
   "theorems": [
    "Verif.Evidence.Object.C97_memory",
    "Verif.Evidence.Object.C97_freed",
    "Verif.Evidence.Object.C97_safe_partial",
    "Verif.Evidence.Object.C97_array_partial",
    "Verif.Evidence.Object.C97_map",
    "Verif.Evidence.Object.C97_copy_partial",
    "Verif.Evidence.Object.C97_copy_violated",
    "Verif.Evidence.Object.C97_tracking_violated",
    "Verif.Evidence.Object.C97_assign_violated"
   ],
   "note": "Proved for all histories, also of several objects, with these exceptions, each shown: an assignment to a key that is in the array leaves it with a pointer to freed memory (C97_assign_violated); the copy the compiler makes of an object shares its array, which is freed twice (C97_copy_violated); with memory tracking, clear and erase before the first get dereference NULL (C97_tracking_violated)."
  },
  {
   "property": "C98",
   "status": "partial",
   "theorems": [
    "Verif.Cache.Debug.C98_call_partial",
    "Verif.Cache.Debug.C98_run_partial",
    "Verif.Cache.Debug.C98_valid_partial",
    "Verif.Cache.Debug.C98_create_partial",
    "Verif.Cache.Debug.C98_noMemory_violated",
    "Verif.Cache.Debug.C98_failedLoad_violated",
    "Verif.Cache.Debug.C98_threads",
    "Verif.Cache.Debug.C98_race_violated"
   ],
   "note": "Proved for all histories: without CACHE_VALIDATE no assert of get and release ever fails, with it exactly a get that takes a node whose last load failed ends the process (C98_call_partial, C98_failedLoad_violated), and the check of a whole shard fails exactly when two nodes have failed loads. CacheCreate asserts that there is memory, where its documentation says NULL is returned (C98_noMemory_violated). The assert at the end of get cannot fail with any number of threads (C98_threads), but reads the count without the lock while another thread may write it (C98_race_violated). Shard capacities are below 2^31."
  },
  {
   "property": "C99",
   "status": "partial",
   "theorems": [
    "Verif.Engine.Update.C99_own",
    "Verif.Engine.Update.C99_none",
    "Verif.Engine.Update.C99_enabled",
    "Verif.Engine.Update.C99_params_partial",
    "Verif.Engine.Update.C99_key_partial",
    "Verif.Engine.Update.C99_plain",
    "Verif.Engine.Update.C99_injected_violated",
    "Verif.Engine.Update.C99_decoded_violated",
    "Verif.Engine.Update.C99_zero_violated"
   ],
   "note": "The key is put into the address without encoding and through c_str. Proved: the server reads the three parameters meant if and only if the key has no zero byte, # or & and decodes to itself (C99_params_partial), and what it reads otherwise (C99_key_partial). Violated by keys with & (C99_injected_violated), + or %XX (C99_decoded_violated) and a leading zero byte (C99_zero_violated: enabled with no key)."
  },
  {
   "property": "C100",
   "status": "partial",
   "theorems": [
    "Verif.Engine.Owners.C100_manager_partial",
    "Verif.Engine.Owners.C100_usable_partial",
    "Verif.Engine.Owners.C100_end_partial",
    "Verif.Engine.Owners.C100_same",
    "Verif.Engine.Owners.C100_apart",
    "Verif.Engine.Owners.C100_serial",
    "Verif.Engine.Owners.C100_ends",
    "Verif.Engine.Owners.C100_alone",
    "Verif.Engine.Owners.C100_threads_violated",
    "Verif.Engine.Owners.C100_lost_violated",
    "Verif.Engine.Owners.C100_null_violated"
   ],
   "note": "Violated: deleting results in one thread while another deletes the engine reads a freed handle (C100_threads_violated), overlapping refreshes lose a data set (C100_lost_violated), and processing during two refreshes may get NULL (C100_null_violated). Proved for every schedule: the manager's memory, the data set kept (C100_manager_partial, C100_usable_partial, C100_same) and the data sets that were ever active (C100_end_partial), where the memory of freed handles is taken to keep its contents; without overlapping refreshes no data set is lost (C100_apart); without overlapping calls no freed memory is used and each call ends (C100_serial, C100_ends); for one thread everything (C100_alone). Not modelled: an engine whose opening failed, and derived classes beyond what the base classes document."
  },
  {
   "property": "C101",
   "status": "partial",
   "theorems": [
    "Verif.Resource.Debug.C101_same_partial",
    "Verif.Resource.Debug.C101_stays",
    "Verif.Resource.Debug.C101_single",
    "Verif.Resource.Debug.C101_single_ends",
    "Verif.Resource.Debug.C101_caught",
    "Verif.Resource.Debug.C101_null_violated"
   ],
   "note": "Violated: ResourceManagerFree asserts through manager->active before it compares it with NULL, so freeing a manager with nothing in it, which does nothing in a release build, is undefined with asserts (C101_null_violated). Proved for every schedule (C101_same_partial; the memory of a freed handle is taken to keep its contents, as in C11) and without threads (C101_single). Not modelled: the asserts about sizes and alignment (resource.c:132, 214-216, 248-250, 283-285)."
  },
  {
   "property": "C102",
   "status": "partial",
   "theorems": [
    "Verif.Memory.Trees.C102_same_partial",
    "Verif.Memory.Trees.C102_totals_partial",
    "Verif.Memory.Trees.C102_defined_partial",
    "Verif.Memory.Trees.C102_records_partial",
    "Verif.Memory.Trees.C102_empty_partial",
    "Verif.Memory.Trees.C102_record_violated",
    "Verif.Memory.Trees.C102_failed_violated",
    "Verif.Memory.Trees.C102_stale_violated",
    "Verif.Memory.Trees.C102_before_violated",
    "Verif.Memory.Trees.C102_null_violated"
   ],
   "note": "Proved for every schedule and all addresses of 64 bits (C102_same_partial, C102_totals_partial, C102_defined_partial, C102_records_partial, C102_empty_partial). Violated: no memory for a record (C102_record_violated), two allocations that fail (C102_failed_violated), Free(NULL) (C102_null_violated), and turning tracking on or off with blocks in use (C102_stale_violated, C102_before_violated). Blocks of 4 GiB or more are C34. Each tree is in a memory of its own; the record is freed in the step that removes it."
  },
  {
   "property": "C103",
   "status": "proved",
   "theorems": [
    "Verif.Record.Debug.C103_get",
    "Verif.Record.Debug.C103_inside",
    "Verif.Record.Debug.C103_owner",
    "Verif.Record.Debug.C103_list",
    "Verif.Record.Debug.C103_overrides"
   ],
   "note": "Proved for every file, header, configuration and key (C103_get, C103_inside, C103_owner, C103_list, C103_overrides). The length in the header is a uint32_t, as in the code. Items of variable size are only shown to start in the memory: where they end is in their own bytes."
  },
  {
   "property": "C104",
   "status": "partial",
   "theorems": [
    "Verif.File.C104_string",
    "Verif.File.C104_path",
    "Verif.File.C104_distinct_partial",
    "Verif.File.C104_content_partial",
    "Verif.File.C104_kept_partial",
    "Verif.File.C104_restored_partial",
    "Verif.File.C104_ends",
    "Verif.File.C104_threads_violated",
    "Verif.File.C104_older_violated",
    "Verif.File.C104_emptied_violated"
   ],
   "note": "Proved for every interleaving, for threads of different processes or with different strings. Violated: two threads of one process that read the same nanoseconds from the clock get the same file, which one empties or deletes under the other (C104_threads_violated, C104_emptied_violated), and the older function has no process id in the name (C104_older_violated). Directories are one per thread, names fit, and reuse of existing files is left out (see C57, C70)."
  },
  {
   "property": "C105",
   "status": "partial",
   "theorems": [
    "Verif.File.C105_new_partial",
    "Verif.File.C105_old_partial",
    "Verif.File.C105_same",
    "Verif.File.C105_negative_violated"
   ],
   "note": "Proved for numbers that are not negative. Violated for a negative number: no directory is tried, a build with asserts ends the process, and one without returns NOT_SET (C105_negative_violated)."
  },
  {
   "property": "C106",
   "status": "proved",
   "theorems": [
    "Verif.Pool.C106_pool",
    "Verif.Pool.C106_pool_alone",
    "Verif.Pool.C106_pool_overtaken",
    "Verif.Resource.C106_manager",
    "Verif.Resource.C106_manager_alone",
    "Verif.Resource.C106_replace_alone",
    "Verif.Resource.C106_free_alone",
    "Verif.Resource.C106_manager_overtaken"
   ],
   "note": "Lock freedom, in numbers: at most 3 accesses per thread and call for the pool and 25 for the manager, for all threads together (`C106_pool`, `C106_manager`); five and nine accesses for a thread alone (`C106_pool_alone`, `C106_manager_alone`), eleven for a replace and twelve for a free that are called and run alone, with what they leave (`C106_replace_alone`, `C106_free_alone`). A single call has no bound: `C106_pool_overtaken`, `C106_manager_overtaken`. A replace that is given NULL by its get (C11) is undefined and is not in these executions."
  },
  {
   "property": "C107",
   "status": "proved",
   "theorems": [
    "Verif.Record.C107_collection",
    "Verif.Record.C107_profiles",
    "Verif.Record.C107_values",
    "Verif.Search.C107_search",
    "Verif.Search.C107_empty",
    "Verif.Search.C107_tight"
   ],
   "note": "The bound is reached for every power of two (`C107_tight`). The range must not end at the largest `uint32_t`, where the bounds wrap (`C14_violated`)."
  },
  {
   "property": "C108",
   "status": "partial",
   "theorems": [
    "Verif.Collection.Nodes.C108_total",
    "Verif.Collection.Nodes.C108_bounded",
    "Verif.Collection.Nodes.C108_bytes",
    "Verif.Collection.Nodes.C108_available_partial",
    "Verif.Collection.Nodes.C108_kept",
    "Verif.Collection.Nodes.C108_freed",
    "Verif.Collection.Nodes.C108_refused_violated"
   ],
   "note": "The clause on exceptions is false: when memory for the node is refused no exception is set, and the key stays in the cache without its bytes, so later gets return nothing without an exception though there is memory again (`C108_refused_violated`); `C108_available_partial` covers histories without such a refusal. Everything else (`C108_total`, `C108_bounded`, `C108_bytes`, `C108_kept`, `C108_freed`) holds whatever memory is refused."
  },
  {
   "property": "C109",
   "status": "partial",
   "theorems": [
    "Verif.Properties.C109_available",
    "Verif.Properties.C109_accepted",
    "Verif.Properties.C109_places",
    "Verif.Properties.C109_lost",
    "Verif.Properties.C109_request_partial",
    "Verif.Properties.C109_request_violated",
    "Verif.Properties.C109_all_violated"
   ],
   "note": "The first clause is false: the request is replaced at each reload by what was available before, so a property asked for by name that is missing from one version is lost for good though later data have it (`C109_lost`, `C109_request_violated`), and a request for everything does not give properties that newer data add (`C109_all_violated`). `C109_available` states exactly what is available after any history; `C109_request_partial` gives the clause when no such property was missing. `C109_accepted` and `C109_places` prove the other two clauses."
  },
  {
   "property": "C110",
   "status": "partial",
   "theorems": [
    "Verif.File.Umask.C110_restored_partial",
    "Verif.File.Umask.C110_nested_partial",
    "Verif.File.Umask.C110_two",
    "Verif.File.Umask.C110_directory",
    "Verif.File.Umask.C110_stays",
    "Verif.File.Umask.C110_lost_violated",
    "Verif.File.Umask.C110_during_violated",
    "Verif.File.Umask.C110_mode_violated"
   ],
   "note": "False when calls overlap: the second call saves the cleared mask, and when it returns last the process is left without a mask (`C110_lost_violated`), for good (`C110_stays`); and a file may be made with the mask (`C110_mode_violated`). Also false for files other threads make during a call (`C110_during_violated`). `C110_restored_partial` gives the property for calls that do not overlap; `C110_two` bounds the permissions in every history, and `C110_directory` proves the clause on directories. C110_nested_partial has the same for calls that overlap but are nested."
  },
  {
   "property": "C111",
   "status": "partial",
   "theorems": [
    "Verif.Config.Threads.C111_own_partial",
    "Verif.Config.Threads.C111_somewhere",
    "Verif.Config.Threads.C111_names_violated",
    "Verif.Config.Threads.C111_contains_violated"
   ],
   "note": "False when queries overlap: a configuration for `A,B` lists `A` and `D`, the second from another configuration, which loses it (`C111_names_violated`); likewise for `containsProperty` (`C111_contains_violated`). `C111_own_partial` gives the property for queries that do not overlap, `C111_somewhere` says what holds in any case."
  },
  {
   "property": "C112",
   "status": "partial",
   "theorems": [
    "Verif.Config.Owner.C112_owned_partial",
    "Verif.Config.Owner.C112_freed_partial",
    "Verif.Config.Owner.C112_copy_violated",
    "Verif.Config.Owner.C112_refused_violated"
   ],
   "note": "False for copies: the class has a destructor but no copy constructor, so for every text both copies free the same block, and one reads it after the other is destroyed (`C112_copy_violated`); and without memory the constructors write to NULL (`C112_refused_violated`). `C112_owned_partial` and `C112_freed_partial` give the property for all other histories (copies of configurations without memory included)."
  },
  {
   "property": "C113",
   "status": "partial",
   "theorems": [
    "Verif.File.Buffer.C113_room",
    "Verif.File.Buffer.C113_prefix",
    "Verif.File.Buffer.C113_lost_partial",
    "Verif.File.Buffer.C113_copy_success",
    "Verif.File.Buffer.C113_write_violated",
    "Verif.File.Buffer.C113_copy_violated"
   ],
   "note": "False: the result of fclose is ignored (file.c:590, 1034), so for every way of buffering and all contents that leave bytes in the buffer there is a full device for which success is reported and the file is cut short (C113_write_violated, C113_copy_violated). Proved: with room the file is exact (C113_room), it always has a beginning of the bytes (C113_prefix), at most a buffer's worth is lost (C113_lost_partial), and exactly when a copy succeeds (C113_copy_success)."
  },
  {
   "property": "C114",
   "status": "partial",
   "theorems": [
    "Verif.Cache.Threads.C114_shard",
    "Verif.Cache.Threads.C114_size_partial",
    "Verif.Cache.Threads.C114_concurrency_partial",
    "Verif.Cache.Threads.C114_factor_partial",
    "Verif.Cache.Threads.C114_size_violated"
   ],
   "note": "Proved for one shard (C114_size_partial); for any number of shards when fewer items are in use than the concurrency (C114_concurrency_partial) or than the size divided by the number of shards (C114_factor_partial). The size documented is not enough in any cache with two or more shards (C114_size_violated). Sizes from 2^30 are C54. Failed loads through a collection keep their node in use (C07_collection_violated)."
  }
 ]
}
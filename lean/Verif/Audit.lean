import Verif.Base
import Verif.Str.Props
import Verif.Evidence.Props
import Verif.Headers.Props
import Verif.Pseudo.Props
import Verif.Data.Props
import Verif.Overrides.Props
import Verif.Lst.Props
import Verif.Search.Props
import Verif.Memory.Props
import Verif.Properties.Props
import Verif.Ip.Props
import Verif.Profile.Props
import Verif.Component.Props
import Verif.Tree.Props
import Verif.Cache.Props
import Verif.Pool.Props
import Verif.Resource.Props
import Verif.DataSet.Props
import Verif.Status.Props
import Verif.Flt.Props
import Verif.Text.Props
import Verif.Signal.Props
import Verif.Config.Props
import Verif.Value.Props
import Verif.File.Names
import Verif.File.Copy
import Verif.File.Temp
import Verif.File.Existing
import Verif.File.Path
import Verif.Collection.Props
import Verif.Lookup.Props
import Verif.Yaml.Props
import Verif.Engine.Props
import Verif.Life.Props
import Verif.Life.Only
import Verif.Work.Props
import Verif.Record.Props
import Verif.Collection.Hold
import Verif.Record.List
import Verif.Record.Iterate
import Verif.Avail.Props
import Verif.HeadersMem.Props
import Verif.OverridesMem.Props
import Verif.Record.Names
import Verif.Record.Values
import Verif.Record.Texts
import Verif.Record.Whole
import Verif.Record.Each
import Verif.Ip.Any
import Verif.File.InUse
import Verif.Memory.Threads
import Verif.Cache.Threads
import Verif.Collection.Reading
import Verif.Collection.Threads
import Verif.DataSet.Owner
import Verif.DataSet.Requests
import Verif.Single.Resource
import Verif.Single.Pool
import Verif.Quiet.Props
import Verif.Quiet.Iterate
import Verif.Quiet.Failing
import Verif.Collection.Only
import Verif.Evidence.Object
import Verif.Cache.Debug
import Verif.Engine.Update
import Verif.Engine.Owners
import Verif.Resource.Debug
import Verif.Memory.Trees
import Verif.Record.Debug
import Verif.File.Race
import Verif.File.Debug
import Verif.Pool.Progress
import Verif.Resource.Progress
import Verif.Search.Steps
import Verif.Record.Steps
import Verif.Collection.Nodes
import Verif.Properties.Reload
import Verif.File.Umask
import Verif.Config.Threads
import Verif.Config.Owner
import Verif.File.Buffer
import Verif.Cache.Room

/-! Axioms of every property theorem (generated by tools/manifest.py). Each line must list at most
`propext`, `Classical.choice` and `Quot.sound`. -/

#print axioms Verif.Tree.C01_find
#print axioms Verif.Tree.C01_count
#print axioms Verif.Tree.C02_balanced
#print axioms Verif.Tree.C03_iterate
#print axioms Verif.Cache.C04_total
#print axioms Verif.Cache.C04_get
#print axioms Verif.Cache.C04_loader
#print axioms Verif.Cache.C04_hash
#print axioms Verif.Cache.C04_shards
#print axioms Verif.Cache.C04_cache
#print axioms Verif.Cache.C05_kept
#print axioms Verif.Cache.C05_notEvicted
#print axioms Verif.Cache.C06_full
#print axioms Verif.Cache.C06_oldest
#print axioms Verif.Cache.C07_states
#print axioms Verif.Cache.C07_noLeak
#print axioms Verif.Cache.C07_counts_partial
#print axioms Verif.Cache.C07_counts_violated
#print axioms Verif.Cache.C07_collection_violated
#print axioms Verif.Cache.C08_shard_partial
#print axioms Verif.Cache.C08_get_partial
#print axioms Verif.Cache.C08_release
#print axioms Verif.Cache.C08_shard_violated
#print axioms Verif.Pool.C09_exclusive_partial
#print axioms Verif.Pool.C09_aba_violated
#print axioms Verif.Pool.C10_conserved_partial
#print axioms Verif.Pool.C10_failed_partial
#print axioms Verif.Pool.C10_progress_partial
#print axioms Verif.Pool.C10_lost_violated
#print axioms Verif.Resource.C11_safe_partial
#print axioms Verif.Resource.C11_got_partial
#print axioms Verif.Resource.C11_useAfterFree_violated
#print axioms Verif.Resource.C11_releaseRead_violated
#print axioms Verif.Resource.C11_null_violated
#print axioms Verif.Resource.C12_freed_partial
#print axioms Verif.Resource.C12_recent_partial
#print axioms Verif.Resource.C12_installed_partial
#print axioms Verif.Resource.C12_later_partial
#print axioms Verif.Resource.C12_lost_violated
#print axioms Verif.Collection.C13_create
#print axioms Verif.Collection.C13_loaded
#print axioms Verif.Collection.C13_item_partial
#print axioms Verif.Collection.C13_outside_partial
#print axioms Verif.Collection.C13_outside_owned
#print axioms Verif.Collection.C13_count
#print axioms Verif.Collection.C13_header
#print axioms Verif.Collection.C13_history
#print axioms Verif.Collection.C13_release
#print axioms Verif.Collection.C13_short_violated
#print axioms Verif.Collection.C13_full_violated
#print axioms Verif.Collection.C13_stale_violated
#print axioms Verif.Collection.C13_dangling_violated
#print axioms Verif.Collection.C13_reuse_violated
#print axioms Verif.Search.C14_search_partial
#print axioms Verif.Search.C14_violated
#print axioms Verif.Search.C14_failures
#print axioms Verif.Search.C14_null_violated
#print axioms Verif.Memory.C15_areas
#print axioms Verif.Memory.C15_items
#print axioms Verif.Memory.C15_reported
#print axioms Verif.Memory.C15_header_partial
#print axioms Verif.Memory.C15_violated
#print axioms Verif.Memory.C15_counted_partial
#print axioms Verif.Memory.C15_sized
#print axioms Verif.Memory.C15_length
#print axioms Verif.Memory.C15_wrap_violated
#print axioms Verif.Str.C16_compare_zero_iff
#print axioms Verif.Str.C16_compare_neg_iff
#print axioms Verif.Str.C16_compare_antisymm
#print axioms Verif.Str.C16_compare_trans
#print axioms Verif.Str.C16_compareLength_zero_iff
#print axioms Verif.Str.C16_compareLength_neg_iff
#print axioms Verif.Str.C16_compareLength_antisymm
#print axioms Verif.Str.C16_compareLength_trans
#print axioms Verif.Str.C16_compareLength_stops
#print axioms Verif.Str.C17_violated
#print axioms Verif.Str.C17_subString_partial
#print axioms Verif.Str.C17_result
#print axioms Verif.Str.C17_empty_violated
#print axioms Verif.Flt.C18_normal_partial
#print axioms Verif.Flt.C18_special_partial
#print axioms Verif.Flt.C18_subnormal_partial
#print axioms Verif.Flt.C18_stored_partial
#print axioms Verif.Flt.C18_read_partial
#print axioms Verif.Flt.C18_subnormal_violated
#print axioms Verif.Flt.C18_special_violated
#print axioms Verif.Flt.C18_equal
#print axioms Verif.Evidence.C19_iterate
#print axioms Verif.Evidence.C19_iterate_all
#print axioms Verif.Evidence.C19_iterate_keeps
#print axioms Verif.Evidence.C20_additions
#print axioms Verif.Evidence.C20_capacity
#print axioms Verif.Evidence.C20_baseGet
#print axioms Verif.Evidence.C21_mapPrefix
#print axioms Verif.Evidence.C21_unique
#print axioms Verif.Evidence.C21_prefixString
#print axioms Verif.Evidence.C21_prefixString_none
#print axioms Verif.Headers.C22_segments
#print axioms Verif.Headers.C22_pieces_spec
#print axioms Verif.Headers.C22_create
#print axioms Verif.Headers.C22_no_overflow_partial
#print axioms Verif.Headers.C22_violated
#print axioms Verif.Headers.C23_headerGetIndex_partial
#print axioms Verif.Headers.C23_violated
#print axioms Verif.Headers.C23_plain
#print axioms Verif.Headers.C23_isHttp_partial
#print axioms Verif.Headers.C23_uniqueId
#print axioms Verif.Headers.C23_own_index
#print axioms Verif.Pseudo.C24_construct_present
#print axioms Verif.Pseudo.C24_construct_none
#print axioms Verif.Pseudo.C24_construct_missing_partial
#print axioms Verif.Pseudo.C24_truncation_violated
#print axioms Verif.Pseudo.C24_addEvidence_partial
#print axioms Verif.Pseudo.C24_remove
#print axioms Verif.Pseudo.C24_remove_add_partial
#print axioms Verif.Pseudo.C24_capacity_partial
#print axioms Verif.Pseudo.C24_capacity_violated
#print axioms Verif.Overrides.C25_history_partial
#print axioms Verif.Overrides.C25_map_partial
#print axioms Verif.Overrides.C25_violated
#print axioms Verif.Overrides.C25_size_partial
#print axioms Verif.Overrides.C25_size_violated
#print axioms Verif.Overrides.C25_hasValue
#print axioms Verif.Overrides.C25_valuesAdd
#print axioms Verif.Overrides.C25_reset
#print axioms Verif.Overrides.C25_extract
#print axioms Verif.Overrides.C26_text
#print axioms Verif.Overrides.C26_cut_spec
#print axioms Verif.Overrides.C26_evidence
#print axioms Verif.Properties.C27_create
#print axioms Verif.Properties.C27_null
#print axioms Verif.Properties.C27_capacity
#print axioms Verif.Properties.C28_lookup_partial
#print axioms Verif.Properties.C28_roundtrip_partial
#print axioms Verif.Properties.C28_place
#print axioms Verif.Properties.C28_unknown
#print axioms Verif.Properties.C28_violated
#print axioms Verif.Profile.C29_values_partial
#print axioms Verif.Profile.C29_overrun_violated
#print axioms Verif.Profile.C29_violated
#print axioms Verif.Profile.C30_lookup_partial
#print axioms Verif.Profile.C30_violated
#print axioms Verif.Ip.C31_anyText
#print axioms Verif.Ip.C31_malformed_violated
#print axioms Verif.Ip.C31_anyGroups
#print axioms Verif.Ip.C31_groups_violated
#print axioms Verif.Ip.C31_v4
#print axioms Verif.Ip.C31_clamped
#print axioms Verif.Ip.C31_v6_full
#print axioms Verif.Ip.C31_v6_abbreviated
#print axioms Verif.Ip.C31_bounds_partial
#print axioms Verif.Ip.C31_violated
#print axioms Verif.Ip.C31_uninitialised_violated
#print axioms Verif.Ip.C32_compare
#print axioms Verif.Ip.C32_invalid
#print axioms Verif.Text.C33_lines_partial
#print axioms Verif.Text.C33_exact_partial
#print axioms Verif.Text.C33_short_partial
#print axioms Verif.Text.C33_prefix_partial
#print axioms Verif.Text.C33_ends
#print axioms Verif.Text.C33_lost_violated
#print axioms Verif.Text.C33_empty_violated
#print axioms Verif.Text.C33_crlf_violated
#print axioms Verif.Memory.C34_totals_partial
#print axioms Verif.Memory.C34_violated
#print axioms Verif.Memory.C34_failed_violated
#print axioms Verif.Lst.C35_released
#print axioms Verif.Lst.C35_free
#print axioms Verif.Lst.C35_reset_used
#print axioms Verif.Lst.C35_capacity
#print axioms Verif.Status.C36_message
#print axioms Verif.Status.C36_default
#print axioms Verif.Status.C36_defaultComplete
#print axioms Verif.Status.C36_codes
#print axioms Verif.Status.C36_decimal
#print axioms Verif.DataSet.C37_usable_partial
#print axioms Verif.DataSet.C37_same
#print axioms Verif.DataSet.C37_failed
#print axioms Verif.DataSet.C37_noLeak_partial
#print axioms Verif.DataSet.C37_later_partial
#print axioms Verif.DataSet.C37_reloadRead_partial
#print axioms Verif.DataSet.C37_reloadRead_violated
#print axioms Verif.Data.C38_requests
#print axioms Verif.Data.C38_reuse
#print axioms Verif.Data.C38_no_leak
#print axioms Verif.Signal.C39_order
#print axioms Verif.Signal.C39_once
#print axioms Verif.Signal.C39_wakes
#print axioms Verif.Signal.C39_ends
#print axioms Verif.Signal.C39_count
#print axioms Verif.Component.C40_pairs_partial
#print axioms Verif.Component.C40_violated
#print axioms Verif.Config.C41_list_partial
#print axioms Verif.Config.C41_text_partial
#print axioms Verif.Config.C41_later_partial
#print axioms Verif.Config.C41_count_partial
#print axioms Verif.Config.C41_none
#print axioms Verif.Config.C41_count_violated
#print axioms Verif.Config.C41_again_violated
#print axioms Verif.Lookup.C42_ip_partial
#print axioms Verif.Lookup.C42_notAddress_partial
#print axioms Verif.Lookup.C42_coordinate
#print axioms Verif.Lookup.C42_notCoordinate
#print axioms Verif.Lookup.C42_getByName
#print axioms Verif.Lookup.C42_noValues
#print axioms Verif.Lookup.C42_memory_violated
#print axioms Verif.Lookup.C42_name_violated
#print axioms Verif.Lookup.C42_malformed_violated
#print axioms Verif.Profile.C42_string
#print axioms Verif.File.C43_name
#print axioms Verif.File.C43_fileName_partial
#print axioms Verif.File.C43_fileName_violated
#print axioms Verif.File.C43_baseName_partial
#print axioms Verif.File.C43_baseName_slash_violated
#print axioms Verif.File.C43_baseName_violated
#print axioms Verif.File.C43_stem_partial
#print axioms Verif.File.C43_stem_safe
#print axioms Verif.File.C43_stem_violated
#print axioms Verif.File.C43_create
#print axioms Verif.File.C43_create_violated
#print axioms Verif.File.C43_temp_partial
#print axioms Verif.File.C43_tempName_partial
#print axioms Verif.File.C43_tempName_failed
#print axioms Verif.File.C43_working
#print axioms Verif.File.C43_tempName_outside
#print axioms Verif.File.C43_temp_violated
#print axioms Verif.File.C43_order_violated
#print axioms Verif.File.C43_overflow_violated
#print axioms Verif.File.C43_truncated_violated
#print axioms Verif.File.C43_random_violated
#print axioms Verif.Memory.C44_partial
#print axioms Verif.Memory.C44_violated
#print axioms Verif.Value.C45_string
#print axioms Verif.Value.C45_bool
#print axioms Verif.Value.C45_double
#print axioms Verif.Value.C45_reads
#print axioms Verif.Value.C45_integer_partial
#print axioms Verif.Value.C45_values
#print axioms Verif.Value.C45_message_partial
#print axioms Verif.Value.C45_default
#print axioms Verif.Value.C45_message_violated
#print axioms Verif.Value.C45_overflow_violated
#print axioms Verif.Overrides.C46_plain
#print axioms Verif.Overrides.C46_unprefixed
#print axioms Verif.Overrides.C46_prefixed_partial
#print axioms Verif.Overrides.C46_violated
#print axioms Verif.Overrides.C46_overridable
#print axioms Verif.Overrides.C47_overriding
#print axioms Verif.Properties.C48_setHeader_partial
#print axioms Verif.Properties.C48_violated
#print axioms Verif.Profile.C49_profiles_partial
#print axioms Verif.Profile.C49_none
#print axioms Verif.Profile.C49_overrun_violated
#print axioms Verif.Profile.C49_violated
#print axioms Verif.Profile.C50_property
#print axioms Verif.Component.C51_list
#print axioms Verif.Component.C51_items
#print axioms Verif.Component.C51_beyond
#print axioms Verif.Record.C51_collection_partial
#print axioms Verif.Record.C51_collection_beyond
#print axioms Verif.Record.C51_endless_violated
#print axioms Verif.Ip.C52_single_partial
#print axioms Verif.Ip.C52_rows
#print axioms Verif.Ip.C52_violated
#print axioms Verif.Ip.C53_empty_partial
#print axioms Verif.Ip.C53_violated
#print axioms Verif.Cache.C54_capacity_partial
#print axioms Verif.Cache.C54_below_partial
#print axioms Verif.Cache.C54_capacity_violated
#print axioms Verif.Pool.C55_freed_partial
#print axioms Verif.Pool.C55_wraps_violated
#print axioms Verif.File.C56_copy_partial
#print axioms Verif.File.C56_read_violated
#print axioms Verif.File.C56_seek_violated
#print axioms Verif.File.C56_self_violated
#print axioms Verif.File.C57_existing_partial
#print axioms Verif.File.C57_same
#print axioms Verif.File.C57_missed_violated
#print axioms Verif.File.C57_overflow_violated
#print axioms Verif.File.C57_empty_violated
#print axioms Verif.File.C57_directory_violated
#print axioms Verif.File.C57_entry_violated
#print axioms Verif.File.C57_working_violated
#print axioms Verif.File.C57_working_partial
#print axioms Verif.File.C58_delete_partial
#print axioms Verif.File.C58_master
#print axioms Verif.File.C58_missed_violated
#print axioms Verif.File.C58_backup_violated
#print axioms Verif.File.C58_count_violated
#print axioms Verif.File.C59_path_partial
#print axioms Verif.File.C59_noDirectory
#print axioms Verif.File.C59_deep_violated
#print axioms Verif.File.C59_root_violated
#print axioms Verif.Yaml.C60_documents_partial
#print axioms Verif.Yaml.C60_buffer
#print axioms Verif.Yaml.C60_lastLine
#print axioms Verif.Yaml.C60_full_violated
#print axioms Verif.Yaml.C60_cut_violated
#print axioms Verif.Yaml.C60_dot_violated
#print axioms Verif.Yaml.C60_quote_violated
#print axioms Verif.Yaml.C60_empty_violated
#print axioms Verif.Yaml.C60_blank_violated
#print axioms Verif.Yaml.C60_stale_violated
#print axioms Verif.Yaml.C60_start_violated
#print axioms Verif.Yaml.C61_limit_partial
#print axioms Verif.Yaml.C61_none
#print axioms Verif.Yaml.C61_zero_violated
#print axioms Verif.Engine.C62_headerKeys
#print axioms Verif.Engine.C62_overrideKeys
#print axioms Verif.Engine.C62_header_partial
#print axioms Verif.Engine.C62_header_violated
#print axioms Verif.Engine.C62_override_partial
#print axioms Verif.Engine.C62_override_violated
#print axioms Verif.Engine.C63_less
#print axioms Verif.Engine.C63_equal
#print axioms Verif.Engine.C63_order
#print axioms Verif.Engine.C64_v4
#print axioms Verif.Engine.C64_v6
#print axioms Verif.Engine.C64_v6_abbreviated
#print axioms Verif.Engine.C64_bytes
#print axioms Verif.Engine.C64_copy_partial
#print axioms Verif.Engine.C64_copy_violated
#print axioms Verif.Engine.C64_uninitialised_violated
#print axioms Verif.Engine.C65_directories
#print axioms Verif.Engine.C65_freed_partial
#print axioms Verif.Engine.C65_leak_violated
#print axioms Verif.Engine.C66_message_partial
#print axioms Verif.Engine.C66_clear_violated
#print axioms Verif.Engine.C66_okay
#print axioms Verif.Engine.C66_status
#print axioms Verif.Engine.C66_fatal_violated
#print axioms Verif.Engine.C67_properties
#print axioms Verif.Engine.C67_outside
#print axioms Verif.Engine.C67_contains_partial
#print axioms Verif.Engine.C67_violated
#print axioms Verif.Life.C68_structs
#print axioms Verif.Life.C68_create_partial
#print axioms Verif.Life.C68_kind
#print axioms Verif.Life.C68_leak_violated
#print axioms Verif.Life.C68_noMemory_violated
#print axioms Verif.Life.C68_noMemory_memory_violated
#print axioms Verif.Life.C68_seek_violated
#print axioms Verif.Life.C68_memory_partial
#print axioms Verif.Life.C69_fixed_partial
#print axioms Verif.Life.C69_variable_partial
#print axioms Verif.Life.C69_exceptions
#print axioms Verif.Life.C69_stale_violated
#print axioms Verif.Life.C69_stale_fixed_violated
#print axioms Verif.Life.C69_reuse_violated
#print axioms Verif.Work.C70_direct
#print axioms Verif.Work.C70_long
#print axioms Verif.Work.C70_keeps_partial
#print axioms Verif.Work.C70_restored_partial
#print axioms Verif.Work.C70_copy_partial
#print axioms Verif.Work.C70_reuse_partial
#print axioms Verif.Work.C70_shared_violated
#print axioms Verif.Work.C70_backup_violated
#print axioms Verif.Work.C70_left_violated
#print axioms Verif.Work.C70_random_violated
#print axioms Verif.Work.C70_reset
#print axioms Verif.Work.C70_reset_violated
#print axioms Verif.Work.C71_read_partial
#print axioms Verif.Work.C71_empty_violated
#print axioms Verif.Work.C71_tracking_violated
#print axioms Verif.Work.C71_write_partial
#print axioms Verif.Work.C71_roundtrip
#print axioms Verif.Work.C71_write_empty_violated
#print axioms Verif.Work.C71_write_left_violated
#print axioms Verif.Work.C71_memory
#print axioms Verif.Work.C71_pool_partial
#print axioms Verif.Work.C71_pool_violated
#print axioms Verif.Record.C72_string_partial
#print axioms Verif.Record.C72_component_partial
#print axioms Verif.Record.C72_profile_partial
#print axioms Verif.Record.C72_string_violated
#print axioms Verif.Record.C72_string_negative
#print axioms Verif.Record.C72_profile_violated
#print axioms Verif.Record.C72_integer_partial
#print axioms Verif.Record.C72_integer_outside
#print axioms Verif.Record.C73_offset_partial
#print axioms Verif.Record.C73_id_partial
#print axioms Verif.Record.C73_id_outside_partial
#print axioms Verif.Record.C73_index_partial
#print axioms Verif.Record.C73_index_outside
#print axioms Verif.Record.C73_wrong_violated
#print axioms Verif.Collection.C74_room
#print axioms Verif.Collection.C74_held
#print axioms Verif.Record.C75_profiles_partial
#print axioms Verif.Record.C75_outside_partial
#print axioms Verif.Record.C75_skipped_violated
#print axioms Verif.Record.C75_leak_violated
#print axioms Verif.Record.C75_free_violated
#print axioms Verif.Record.C75_release_violated
#print axioms Verif.Record.C75_uninitialised_violated
#print axioms Verif.Record.C75_overrun_violated
#print axioms Verif.Avail.C76_balance
#print axioms Verif.Avail.C76_create_partial
#print axioms Verif.Avail.C76_overflow_violated
#print axioms Verif.Avail.C76_collection_violated
#print axioms Verif.Avail.C77_success
#print axioms Verif.Avail.C77_codes_partial
#print axioms Verif.Avail.C77_name_violated
#print axioms Verif.Avail.C77_two_violated
#print axioms Verif.Avail.C77_memory_violated
#print axioms Verif.Avail.C77_fewer_violated
#print axioms Verif.Avail.C77_index_violated
#print axioms Verif.HeadersMem.C78_made
#print axioms Verif.HeadersMem.C78_null_partial
#print axioms Verif.HeadersMem.C78_create_partial
#print axioms Verif.HeadersMem.C78_leak_violated
#print axioms Verif.HeadersMem.C78_overflow_violated
#print axioms Verif.HeadersMem.C78_status_violated
#print axioms Verif.HeadersMem.C78_status
#print axioms Verif.OverridesMem.C79_values
#print axioms Verif.OverridesMem.C79_last
#print axioms Verif.OverridesMem.C79_free
#print axioms Verif.OverridesMem.C79_create
#print axioms Verif.OverridesMem.C79_defined_partial
#print axioms Verif.OverridesMem.C79_alloc_violated
#print axioms Verif.OverridesMem.C79_pointer_partial
#print axioms Verif.OverridesMem.C79_reuse
#print axioms Verif.OverridesMem.C79_pointer_violated
#print axioms Verif.Record.C80_property_partial
#print axioms Verif.Record.C80_valueType_partial
#print axioms Verif.Record.C80_defaultProfile_partial
#print axioms Verif.Record.C80_valueType_outside
#print axioms Verif.Record.C80_wrong_violated
#print axioms Verif.Record.C80_leak_violated
#print axioms Verif.Record.C80_free_violated
#print axioms Verif.Record.C80_release_violated
#print axioms Verif.Record.C80_uninitialised_violated
#print axioms Verif.Record.C81_index_partial
#print axioms Verif.Record.C81_text_partial
#print axioms Verif.Record.C81_value_partial
#print axioms Verif.Record.C81_full_violated
#print axioms Verif.Record.C81_held_violated
#print axioms Verif.Record.C81_empty_violated
#print axioms Verif.Record.C82_text_partial
#print axioms Verif.Record.C82_outside_partial
#print axioms Verif.Record.C82_layout
#print axioms Verif.Record.C82_field_partial
#print axioms Verif.Record.C82_coordinate_partial
#print axioms Verif.Record.C82_full_violated
#print axioms Verif.Record.C82_format_violated
#print axioms Verif.Record.C82_null_violated
#print axioms Verif.Record.C83_profiles_partial
#print axioms Verif.Record.C83_wrong_violated
#print axioms Verif.Record.C83_uninitialised_violated
#print axioms Verif.Record.C83_missed_violated
#print axioms Verif.Record.C83_empty_violated
#print axioms Verif.Record.C84_values_partial
#print axioms Verif.Record.C84_outside
#print axioms Verif.Record.C84_skipped_violated
#print axioms Verif.Record.C84_overrun_violated
#print axioms Verif.File.C85_inUse_partial
#print axioms Verif.File.C85_unknown
#print axioms Verif.File.C85_suffix_violated
#print axioms Verif.File.C85_relative_violated
#print axioms Verif.File.C85_long_violated
#print axioms Verif.File.C85_null_violated
#print axioms Verif.File.C85_kept_partial
#print axioms Verif.File.C85_deleted_violated
#print axioms Verif.Memory.Threads.C86_totals_partial
#print axioms Verif.Memory.Threads.C86_defined_partial
#print axioms Verif.Memory.Threads.C86_max_partial
#print axioms Verif.Memory.Threads.C86_again
#print axioms Verif.Memory.Threads.C86_off_partial
#print axioms Verif.Memory.Threads.C86_leaks_partial
#print axioms Verif.Memory.Threads.C86_first_partial
#print axioms Verif.Memory.Threads.C86_init_violated
#print axioms Verif.Memory.Threads.C86_reset_violated
#print axioms Verif.Memory.Threads.C86_stale_violated
#print axioms Verif.Cache.Threads.C87_serial
#print axioms Verif.Cache.Threads.C87_exclusive
#print axioms Verif.Cache.Threads.C87_data
#print axioms Verif.Cache.Threads.C87_get
#print axioms Verif.Cache.Threads.C87_progress
#print axioms Verif.Cache.Threads.C87_ends
#print axioms Verif.Cache.Threads.C87_answers
#print axioms Verif.Cache.Threads.C87_loader
#print axioms Verif.Cache.Threads.C87_quiet
#print axioms Verif.Cache.Threads.C87_counts_partial
#print axioms Verif.Cache.Threads.C87_counts_violated
#print axioms Verif.Collection.Reading.C88_alone
#print axioms Verif.Collection.Reading.C88_item
#print axioms Verif.Collection.Reading.C88_exclusive
#print axioms Verif.Collection.Reading.C88_returned
#print axioms Verif.Collection.Reading.C88_enough
#print axioms Verif.Collection.Reading.C88_answers
#print axioms Verif.Collection.Reading.C88_ends
#print axioms Verif.Collection.Reading.C88_progress
#print axioms Verif.Collection.Threads.C89_bytes
#print axioms Verif.Collection.Threads.C89_item
#print axioms Verif.Collection.Threads.C89_answers
#print axioms Verif.Collection.Threads.C89_none
#print axioms Verif.Collection.Threads.C89_gives
#print axioms Verif.Collection.Threads.C89_progress
#print axioms Verif.Collection.Threads.C89_ends
#print axioms Verif.Collection.Threads.C89_quiet
#print axioms Verif.Owner.C90_owned_partial
#print axioms Verif.Owner.C90_freed_partial
#print axioms Verif.Owner.C90_again
#print axioms Verif.Owner.C90_ready
#print axioms Verif.Owner.C90_defined
#print axioms Verif.Owner.C90_lost_violated
#print axioms Verif.Owner.C90_twice_violated
#print axioms Verif.Owner.C90_config_violated
#print axioms Verif.Requests.C91_data
#print axioms Verif.Requests.C91_alive_partial
#print axioms Verif.Requests.C91_stays
#print axioms Verif.Requests.C91_version
#print axioms Verif.Requests.C91_item
#print axioms Verif.Requests.C91_apart
#print axioms Verif.Requests.C91_freed
#print axioms Verif.Requests.C91_progress
#print axioms Verif.Requests.C91_later_partial
#print axioms Verif.Requests.C91_null_violated
#print axioms Verif.Single.C92_defined
#print axioms Verif.Single.C92_get
#print axioms Verif.Single.C92_held
#print axioms Verif.Single.C92_calls
#print axioms Verif.Single.C92_exact
#print axioms Verif.Single.C92_memory
#print axioms Verif.Single.C92_clean
#print axioms Verif.Single.C92_limit
#print axioms Verif.Single.C93_defined
#print axioms Verif.Single.C93_get
#print axioms Verif.Single.C93_conserved
#print axioms Verif.Single.C93_resource
#print axioms Verif.Single.C93_capacity
#print axioms Verif.Quiet.C94_fields_file_partial
#print axioms Verif.Quiet.C94_offset_violated
#print axioms Verif.Quiet.C94_lookup_file_partial
#print axioms Verif.Quiet.C94_rest_partial
#print axioms Verif.Quiet.C94_rest_violated
#print axioms Verif.Quiet.C94_get_partial
#print axioms Verif.Quiet.C94_file_partial
#print axioms Verif.Quiet.C94_fields_partial
#print axioms Verif.Quiet.C94_value_partial
#print axioms Verif.Quiet.C94_offset_partial
#print axioms Verif.Quiet.C94_profile_partial
#print axioms Verif.Quiet.C94_property_partial
#print axioms Verif.Quiet.C94_list_partial
#print axioms Verif.Quiet.C94_memory_violated
#print axioms Verif.Quiet.C94_remembered_violated
#print axioms Verif.Quiet.C94_wrong_violated
#print axioms Verif.Quiet.C94_dangling_violated
#print axioms Verif.Quiet.C94_endless_violated
#print axioms Verif.Quiet.C95_same_partial
#print axioms Verif.Quiet.C95_seen_partial
#print axioms Verif.Quiet.C95_loaded_partial
#print axioms Verif.Quiet.C95_handles_violated
#print axioms Verif.Quiet.C95_outside
#print axioms Verif.Quiet.C95_nodes_violated
#print axioms Verif.Collection.C96_null
#print axioms Verif.Collection.C96_item
#print axioms Verif.Collection.C96_outside
#print axioms Verif.Collection.C96_count
#print axioms Verif.Collection.C96_same
#print axioms Verif.Collection.C96_over_violated
#print axioms Verif.Life.C96_free_partial
#print axioms Verif.Life.C96_counted_violated
#print axioms Verif.Life.C96_noMemory_violated
#print axioms Verif.Evidence.Object.C97_memory
#print axioms Verif.Evidence.Object.C97_freed
#print axioms Verif.Evidence.Object.C97_safe_partial
#print axioms Verif.Evidence.Object.C97_array_partial
#print axioms Verif.Evidence.Object.C97_map
#print axioms Verif.Evidence.Object.C97_copy_partial
#print axioms Verif.Evidence.Object.C97_copy_violated
#print axioms Verif.Evidence.Object.C97_tracking_violated
#print axioms Verif.Evidence.Object.C97_assign_violated
#print axioms Verif.Cache.Debug.C98_call_partial
#print axioms Verif.Cache.Debug.C98_run_partial
#print axioms Verif.Cache.Debug.C98_valid_partial
#print axioms Verif.Cache.Debug.C98_create_partial
#print axioms Verif.Cache.Debug.C98_noMemory_violated
#print axioms Verif.Cache.Debug.C98_failedLoad_violated
#print axioms Verif.Cache.Debug.C98_threads
#print axioms Verif.Cache.Debug.C98_race_violated
#print axioms Verif.Engine.Update.C99_own
#print axioms Verif.Engine.Update.C99_none
#print axioms Verif.Engine.Update.C99_enabled
#print axioms Verif.Engine.Update.C99_params_partial
#print axioms Verif.Engine.Update.C99_key_partial
#print axioms Verif.Engine.Update.C99_plain
#print axioms Verif.Engine.Update.C99_injected_violated
#print axioms Verif.Engine.Update.C99_decoded_violated
#print axioms Verif.Engine.Update.C99_zero_violated
#print axioms Verif.Engine.Owners.C100_manager_partial
#print axioms Verif.Engine.Owners.C100_usable_partial
#print axioms Verif.Engine.Owners.C100_end_partial
#print axioms Verif.Engine.Owners.C100_same
#print axioms Verif.Engine.Owners.C100_apart
#print axioms Verif.Engine.Owners.C100_serial
#print axioms Verif.Engine.Owners.C100_ends
#print axioms Verif.Engine.Owners.C100_alone
#print axioms Verif.Engine.Owners.C100_threads_violated
#print axioms Verif.Engine.Owners.C100_lost_violated
#print axioms Verif.Engine.Owners.C100_null_violated
#print axioms Verif.Resource.Debug.C101_same_partial
#print axioms Verif.Resource.Debug.C101_stays
#print axioms Verif.Resource.Debug.C101_single
#print axioms Verif.Resource.Debug.C101_single_ends
#print axioms Verif.Resource.Debug.C101_caught
#print axioms Verif.Resource.Debug.C101_null_violated
#print axioms Verif.Memory.Trees.C102_same_partial
#print axioms Verif.Memory.Trees.C102_totals_partial
#print axioms Verif.Memory.Trees.C102_defined_partial
#print axioms Verif.Memory.Trees.C102_records_partial
#print axioms Verif.Memory.Trees.C102_empty_partial
#print axioms Verif.Memory.Trees.C102_record_violated
#print axioms Verif.Memory.Trees.C102_failed_violated
#print axioms Verif.Memory.Trees.C102_stale_violated
#print axioms Verif.Memory.Trees.C102_before_violated
#print axioms Verif.Memory.Trees.C102_null_violated
#print axioms Verif.Record.Debug.C103_get
#print axioms Verif.Record.Debug.C103_inside
#print axioms Verif.Record.Debug.C103_owner
#print axioms Verif.Record.Debug.C103_list
#print axioms Verif.Record.Debug.C103_overrides
#print axioms Verif.File.C104_string
#print axioms Verif.File.C104_path
#print axioms Verif.File.C104_distinct_partial
#print axioms Verif.File.C104_content_partial
#print axioms Verif.File.C104_kept_partial
#print axioms Verif.File.C104_restored_partial
#print axioms Verif.File.C104_ends
#print axioms Verif.File.C104_threads_violated
#print axioms Verif.File.C104_older_violated
#print axioms Verif.File.C104_emptied_violated
#print axioms Verif.File.C105_new_partial
#print axioms Verif.File.C105_old_partial
#print axioms Verif.File.C105_same
#print axioms Verif.File.C105_negative_violated
#print axioms Verif.Pool.C106_pool
#print axioms Verif.Pool.C106_pool_alone
#print axioms Verif.Pool.C106_pool_overtaken
#print axioms Verif.Resource.C106_manager
#print axioms Verif.Resource.C106_manager_alone
#print axioms Verif.Resource.C106_replace_alone
#print axioms Verif.Resource.C106_free_alone
#print axioms Verif.Resource.C106_manager_overtaken
#print axioms Verif.Record.C107_collection
#print axioms Verif.Record.C107_profiles
#print axioms Verif.Record.C107_values
#print axioms Verif.Search.C107_search
#print axioms Verif.Search.C107_empty
#print axioms Verif.Search.C107_tight
#print axioms Verif.Collection.Nodes.C108_total
#print axioms Verif.Collection.Nodes.C108_bounded
#print axioms Verif.Collection.Nodes.C108_bytes
#print axioms Verif.Collection.Nodes.C108_available_partial
#print axioms Verif.Collection.Nodes.C108_kept
#print axioms Verif.Collection.Nodes.C108_freed
#print axioms Verif.Collection.Nodes.C108_refused_violated
#print axioms Verif.Properties.C109_available
#print axioms Verif.Properties.C109_accepted
#print axioms Verif.Properties.C109_places
#print axioms Verif.Properties.C109_lost
#print axioms Verif.Properties.C109_request_partial
#print axioms Verif.Properties.C109_request_violated
#print axioms Verif.Properties.C109_all_violated
#print axioms Verif.File.Umask.C110_restored_partial
#print axioms Verif.File.Umask.C110_nested_partial
#print axioms Verif.File.Umask.C110_two
#print axioms Verif.File.Umask.C110_directory
#print axioms Verif.File.Umask.C110_stays
#print axioms Verif.File.Umask.C110_lost_violated
#print axioms Verif.File.Umask.C110_during_violated
#print axioms Verif.File.Umask.C110_mode_violated
#print axioms Verif.Config.Threads.C111_own_partial
#print axioms Verif.Config.Threads.C111_somewhere
#print axioms Verif.Config.Threads.C111_names_violated
#print axioms Verif.Config.Threads.C111_contains_violated
#print axioms Verif.Config.Owner.C112_owned_partial
#print axioms Verif.Config.Owner.C112_freed_partial
#print axioms Verif.Config.Owner.C112_copy_violated
#print axioms Verif.Config.Owner.C112_refused_violated
#print axioms Verif.File.Buffer.C113_room
#print axioms Verif.File.Buffer.C113_prefix
#print axioms Verif.File.Buffer.C113_lost_partial
#print axioms Verif.File.Buffer.C113_copy_success
#print axioms Verif.File.Buffer.C113_write_violated
#print axioms Verif.File.Buffer.C113_copy_violated
#print axioms Verif.Cache.Threads.C114_shard
#print axioms Verif.Cache.Threads.C114_size_partial
#print axioms Verif.Cache.Threads.C114_concurrency_partial
#print axioms Verif.Cache.Threads.C114_factor_partial
#print axioms Verif.Cache.Threads.C114_size_violated

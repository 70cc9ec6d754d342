{
 "claims": [
  {
   "property": "C01",
   "status": "proved",
   "theorems": [
    "QuickCache.Props.C01_iter",
    "QuickCache.Props.C01_lookup",
    "QuickCache.Props.C01_loaded"
   ],
   "note": ""
  },
  {
   "property": "C02",
   "status": "proved",
   "theorems": [
    "QuickCache.Props.C02_contents",
    "QuickCache.Props.C02_refines",
    "QuickCache.Props.C02_not_lost",
    "QuickCache.Props.C02_nothing_appears"
   ],
   "note": ""
  },
  {
   "property": "C03",
   "status": "proved",
   "theorems": [
    "QuickCache.Props.C03_evictable",
    "QuickCache.Props.C03_weight"
   ],
   "note": ""
  },
  {
   "property": "C04",
   "status": "proved",
   "theorems": [
    "QuickCache.Props.C04_weight",
    "QuickCache.Props.C04_returns"
   ],
   "note": ""
  },
  {
   "property": "C05",
   "status": "proved",
   "theorems": [
    "QuickCache.Props.C05_len"
   ],
   "note": ""
  },
  {
   "property": "C06",
   "status": "proved",
   "theorems": [
    "QuickCache.Props.C06_exact",
    "QuickCache.Props.C06_overwrite",
    "QuickCache.Props.C06_replace",
    "QuickCache.Props.C06_rejected",
    "QuickCache.Props.C06_panics",
    "QuickCache.Props.C06_returns",
    "QuickCache.Props.C06_reads",
    "QuickCache.Props.C06_weight"
   ],
   "note": ""
  },
  {
   "property": "C07",
   "status": "proved",
   "theorems": [
    "QuickCache.Props.C07_terminates"
   ],
   "note": ""
  },
  {
   "property": "C08",
   "status": "proved",
   "theorems": [
    "QuickCache.Props.C08_call",
    "QuickCache.Props.C08_run",
    "QuickCache.Props.C08_victims"
   ],
   "note": ""
  },
  {
   "property": "C09",
   "status": "proved",
   "theorems": [
    "QuickCache.Props.C09_call",
    "QuickCache.Props.C09_run",
    "QuickCache.Props.C09_victims"
   ],
   "note": ""
  },
  {
   "property": "C10",
   "status": "proved",
   "theorems": [
    "QuickCache.Props.C10_iter",
    "QuickCache.Props.C10_drain"
   ],
   "note": ""
  },
  {
   "property": "C11",
   "status": "proved",
   "theorems": [
    "QuickCache.Props.C11_lookups",
    "QuickCache.Props.C11_mutable"
   ],
   "note": ""
  },
  {
   "property": "C12",
   "status": "proved",
   "theorems": [
    "QuickCache.Props.C12_remove"
   ],
   "note": ""
  },
  {
   "property": "C13",
   "status": "proved",
   "theorems": [
    "QuickCache.Props.C13_absent",
    "QuickCache.Props.C13_replaced",
    "QuickCache.Props.C13_rejected"
   ],
   "note": ""
  },
  {
   "property": "C14",
   "status": "proved",
   "theorems": [
    "QuickCache.Props.C14_state",
    "QuickCache.Props.C14_noTrace",
    "QuickCache.Props.C14_fresh"
   ],
   "note": ""
  },
  {
   "property": "C15",
   "status": "partial",
   "theorems": [
    "QuickCache.Props.C15_false",
    "QuickCache.Props.C15_partial"
   ],
   "note": "The full statement is false of the code: C15_false exhibits a run of a capacity-2 cache with default options in which insert of a unit-weight item returns normally and the item is absent. C15_partial gives conditions under which the item is there and shows that otherwise it was chosen as a victim."
  },
  {
   "property": "C16",
   "status": "proved",
   "theorems": [
    "QuickCache.Props.C16_rejected"
   ],
   "note": ""
  },
  {
   "property": "C17",
   "status": "proved",
   "theorems": [
    "QuickCache.Props.C17_fits"
   ],
   "note": ""
  },
  {
   "property": "C18",
   "status": "proved",
   "theorems": [
    "QuickCache.Props.C18_retain"
   ],
   "note": ""
  },
  {
   "property": "C19",
   "status": "proved",
   "theorems": [
    "QuickCache.Props.C19_clear",
    "QuickCache.Props.C19_drain"
   ],
   "note": ""
  },
  {
   "property": "C20",
   "status": "proved",
   "theorems": [
    "QuickCache.Props.C20_insert",
    "QuickCache.Props.C20_fill",
    "QuickCache.Props.C20_fill_write",
    "QuickCache.Props.C20_replace",
    "QuickCache.Props.C20_silent"
   ],
   "note": ""
  },
  {
   "property": "C21",
   "status": "proved",
   "theorems": [
    "QuickCache.Props.C21_shared",
    "QuickCache.Props.C21_store",
    "QuickCache.Props.C21_silent",
    "QuickCache.Props.C21_threads"
   ],
   "note": ""
  },
  {
   "property": "C22",
   "status": "proved",
   "theorems": [
    "QuickCache.Props.C22_ghosts",
    "QuickCache.Props.C22_options",
    "QuickCache.Props.C22_origin"
   ],
   "note": ""
  },
  {
   "property": "C23",
   "status": "partial",
   "theorems": [
    "QuickCache.Props.C23_false",
    "QuickCache.Props.C23_false_panic",
    "QuickCache.Props.C23_partial"
   ],
   "note": "The full statement is false of the code: C23_false shows, for every configuration, that n dropped guards leave n slots in use in an empty cache, and C23_false_panic that this ends in a panic. C23_partial bounds the slots by items, ghosts and given-up loads."
  },
  {
   "property": "C24",
   "status": "proved",
   "theorems": [
    "QuickCache.Props.C24_cache",
    "QuickCache.Props.C24_calls",
    "QuickCache.Props.C24_length",
    "QuickCache.Props.C24_reuse"
   ],
   "note": ""
  },
  {
   "property": "C25",
   "status": "proved",
   "theorems": [
    "QuickCache.Props.C25_calls",
    "QuickCache.Props.C25_read",
    "QuickCache.Props.C25_distinct",
    "QuickCache.Props.C25_walk",
    "QuickCache.Props.C25_next"
   ],
   "note": ""
  },
  {
   "property": "C26",
   "status": "proved",
   "theorems": [
    "QuickCache.Props.C26_hit",
    "QuickCache.Props.C26_fail",
    "QuickCache.Props.C26_load",
    "QuickCache.Props.C26_mut_hit",
    "QuickCache.Props.C26_mut_load",
    "QuickCache.Props.C26_mut_fail"
   ],
   "note": ""
  },
  {
   "property": "C27",
   "status": "proved",
   "theorems": [
    "QuickCache.Props.C27_hit",
    "QuickCache.Props.C27_guard",
    "QuickCache.Props.C27_mut_hit",
    "QuickCache.Props.C27_mut_guard"
   ],
   "note": ""
  },
  {
   "property": "C28",
   "status": "proved",
   "theorems": [
    "QuickCache.Props.C28_write",
    "QuickCache.Props.C28_candidates"
   ],
   "note": ""
  },
  {
   "property": "C29",
   "status": "proved",
   "theorems": [
    "QuickCache.Props.C29_repair",
    "QuickCache.Props.C29_weightless"
   ],
   "note": ""
  },
  {
   "property": "C30",
   "status": "proved",
   "theorems": [
    "QuickCache.Props.C30_equivalent",
    "QuickCache.Props.C30_lookup"
   ],
   "note": ""
  },
  {
   "property": "C31",
   "status": "proved",
   "theorems": [
    "QuickCache.Props.C31_reserve",
    "QuickCache.Props.C31_layout"
   ],
   "note": ""
  },
  {
   "property": "C32",
   "status": "proved",
   "theorems": [
    "QuickCache.Props.C32_peek",
    "QuickCache.Props.C32_get"
   ],
   "note": ""
  },
  {
   "property": "C33",
   "status": "proved",
   "theorems": [
    "QuickCache.Props.C33_bound",
    "QuickCache.Props.C33_read",
    "QuickCache.Props.C33_scan"
   ],
   "note": ""
  },
  {
   "property": "C34",
   "status": "proved",
   "theorems": [
    "QuickCache.Props.C34_scan",
    "QuickCache.Props.C34_victims"
   ],
   "note": ""
  },
  {
   "property": "C35",
   "status": "proved",
   "theorems": [
    "QuickCache.Props.C35_replace"
   ],
   "note": ""
  },
  {
   "property": "C36",
   "status": "proved",
   "theorems": [
    "QuickCache.Props.C36_lookup",
    "QuickCache.Props.C36_load",
    "QuickCache.Props.C36_pending",
    "QuickCache.Props.C36_other",
    "QuickCache.Props.C36_conc",
    "QuickCache.Props.C36_sharded"
   ],
   "note": ""
  },
  {
   "property": "C37",
   "status": "proved",
   "theorems": [
    "QuickCache.Props.C37_capacity"
   ],
   "note": ""
  },
  {
   "property": "C38",
   "status": "proved",
   "theorems": [
    "QuickCache.Props.C38",
    "QuickCache.Props.C38_items"
   ],
   "note": ""
  },
  {
   "property": "C39",
   "status": "proved",
   "theorems": [
    "QuickCache.Props.C39"
   ],
   "note": ""
  },
  {
   "property": "C40",
   "status": "proved",
   "theorems": [
    "QuickCache.Props.C40"
   ],
   "note": ""
  },
  {
   "property": "C41",
   "status": "proved",
   "theorems": [
    "QuickCache.Props.C41_exact",
    "QuickCache.Props.C41_overwrite",
    "QuickCache.Props.C41_which",
    "QuickCache.Props.C41_never",
    "QuickCache.Props.C41_route",
    "QuickCache.Props.C41_local",
    "QuickCache.Props.C41_panics",
    "QuickCache.Props.C41_shard",
    "QuickCache.Props.C41_refines",
    "QuickCache.Props.C41_contents",
    "QuickCache.Props.C41_latest",
    "QuickCache.Props.C41_lookup",
    "QuickCache.Props.C41_agree",
    "QuickCache.Props.C41_sweep",
    "QuickCache.Props.C41_len",
    "QuickCache.Props.C41_weight",
    "QuickCache.Props.C41_capacity",
    "QuickCache.Props.C41_bound"
   ],
   "note": ""
  },
  {
   "property": "C42",
   "status": "proved",
   "theorems": [
    "QuickCache.Props.C42_setters",
    "QuickCache.Props.C42_build"
   ],
   "note": ""
  },
  {
   "property": "C43",
   "status": "proved",
   "theorems": [
    "QuickCache.Props.C43",
    "QuickCache.Props.C43_product",
    "QuickCache.Props.C43_build"
   ],
   "note": ""
  },
  {
   "property": "C44",
   "status": "proved",
   "theorems": [
    "QuickCache.Props.C44_one",
    "QuickCache.Props.C44_guards"
   ],
   "note": ""
  },
  {
   "property": "C45",
   "status": "proved",
   "theorems": [
    "QuickCache.Props.C45_single"
   ],
   "note": ""
  },
  {
   "property": "C46",
   "status": "proved",
   "theorems": [
    "QuickCache.Props.C46_responsible",
    "QuickCache.Props.C46_listed"
   ],
   "note": ""
  },
  {
   "property": "C47",
   "status": "proved",
   "theorems": [
    "QuickCache.Props.C47_value",
    "QuickCache.Props.C47_same",
    "QuickCache.Props.C47_once"
   ],
   "note": ""
  },
  {
   "property": "C48",
   "status": "proved",
   "theorems": [
    "QuickCache.Props.C48_handover",
    "QuickCache.Props.C48_removed",
    "QuickCache.Props.C48_gone",
    "QuickCache.Props.C48_fresh"
   ],
   "note": ""
  },
  {
   "property": "C49",
   "status": "proved",
   "theorems": [
    "QuickCache.Props.C49_asserts",
    "QuickCache.Props.C49_sites",
    "QuickCache.Props.C49_exact",
    "QuickCache.Props.C49_overwrite",
    "QuickCache.Props.C49_panics"
   ],
   "note": ""
  },
  {
   "property": "C50",
   "status": "proved",
   "theorems": [
    "QuickCache.Props.C50_unlisted",
    "QuickCache.Props.C50_left",
    "QuickCache.Props.C50_timeout",
    "QuickCache.Props.C50_cancel"
   ],
   "note": ""
  },
  {
   "property": "C51",
   "status": "proved",
   "theorems": [
    "QuickCache.Props.C51_err",
    "QuickCache.Props.C51_effect"
   ],
   "note": ""
  },
  {
   "property": "C52",
   "status": "proved",
   "theorems": [
    "QuickCache.Props.C52_finite",
    "QuickCache.Props.C52_progress",
    "QuickCache.Props.C52_end"
   ],
   "note": ""
  },
  {
   "property": "C53",
   "status": "proved",
   "theorems": [
    "QuickCache.Props.C53_order",
    "QuickCache.Props.C53_released",
    "QuickCache.Props.C53_acyclic",
    "QuickCache.Props.C53_progress"
   ],
   "note": ""
  },
  {
   "property": "C54",
   "status": "proved",
   "theorems": [
    "QuickCache.Props.C54_waker",
    "QuickCache.Props.C54_published"
   ],
   "note": ""
  },
  {
   "property": "C55",
   "status": "proved",
   "theorems": [
    "QuickCache.Props.C55_linearizable",
    "QuickCache.Props.C55_hit",
    "QuickCache.Props.C55_miss",
    "QuickCache.Props.C55_locked",
    "QuickCache.Props.C55_structure"
   ],
   "note": ""
  },
  {
   "property": "C56",
   "status": "proved",
   "theorems": [
    "QuickCache.Props.C56_not_early",
    "QuickCache.Props.C56_overshoot",
    "QuickCache.Props.C56_overshoot_zero",
    "QuickCache.Props.C56_ends"
   ],
   "note": ""
  },
  {
   "property": "C57",
   "status": "proved",
   "theorems": [
    "QuickCache.Props.C57_policy"
   ],
   "note": ""
  },
  {
   "property": "C58",
   "status": "proved",
   "theorems": [
    "QuickCache.Props.C58_hash_blind",
    "QuickCache.Props.C58_layout_blind"
   ],
   "note": ""
  },
  {
   "property": "C59",
   "status": "proved",
   "theorems": [
    "QuickCache.Props.C59_like_new"
   ],
   "note": ""
  },
  {
   "property": "C60",
   "status": "proved",
   "theorems": [
    "QuickCache.Props.C60_policy",
    "QuickCache.Props.C60_waited",
    "QuickCache.Props.C60_fill",
    "QuickCache.Props.C60_use"
   ],
   "note": ""
  },
  {
   "property": "C61",
   "status": "proved",
   "theorems": [
    "QuickCache.Props.C61_unsync",
    "QuickCache.Props.C61_calm",
    "QuickCache.Props.C61_checks",
    "QuickCache.Props.C61_sync"
   ],
   "note": ""
  },
  {
   "property": "C62",
   "status": "proved",
   "theorems": [
    "QuickCache.Props.C62_story",
    "QuickCache.Props.C62_only",
    "QuickCache.Props.C62_returned",
    "QuickCache.Props.C62_result",
    "QuickCache.Props.C62_single",
    "QuickCache.Props.C62_absent",
    "QuickCache.Props.C62_source",
    "QuickCache.Props.C62_panics",
    "QuickCache.Props.C62_finite",
    "QuickCache.Props.C62_end"
   ],
   "note": ""
  },
  {
   "property": "C63",
   "status": "proved",
   "theorems": [
    "QuickCache.Props.C63_bound",
    "QuickCache.Props.C63_new",
    "QuickCache.Props.C63_nothing",
    "QuickCache.Props.C63_room",
    "QuickCache.Props.C63_new_shared",
    "QuickCache.Props.C63_bound_shared",
    "QuickCache.Props.C63_stash"
   ],
   "note": ""
  },
  {
   "property": "C64",
   "status": "proved",
   "theorems": [
    "QuickCache.Props.C64_victims",
    "QuickCache.Props.C64_count",
    "QuickCache.Props.C64_new",
    "QuickCache.Props.C64_shared",
    "QuickCache.Props.C64_false"
   ],
   "note": ""
  },
  {
   "property": "C65",
   "status": "proved",
   "theorems": [
    "QuickCache.Props.C65_call",
    "QuickCache.Props.C65_debug",
    "QuickCache.Props.C65_release",
    "QuickCache.Props.C65_shared",
    "QuickCache.Props.C65_false"
   ],
   "note": ""
  },
  {
   "property": "C66",
   "status": "proved",
   "theorems": [
    "QuickCache.Props.C66_calls",
    "QuickCache.Props.C66_sections",
    "QuickCache.Props.C66_debug"
   ],
   "note": ""
  },
  {
   "property": "C67",
   "status": "proved",
   "theorems": [
    "QuickCache.Props.C67_same",
    "QuickCache.Props.C67_quiet",
    "QuickCache.Props.C67_ended",
    "QuickCache.Props.C67_returned",
    "QuickCache.Props.C67_failed",
    "QuickCache.Props.C67_lost",
    "QuickCache.Props.C67_shared"
   ],
   "note": ""
  },
  {
   "property": "C68",
   "status": "proved",
   "theorems": [
    "QuickCache.Props.C68_outside",
    "QuickCache.Props.C68_parked",
    "QuickCache.Props.C68_reading",
    "QuickCache.Props.C68_writing",
    "QuickCache.Props.C68_publish",
    "QuickCache.Props.C68_waker",
    "QuickCache.Props.C68_wake",
    "QuickCache.Props.C68_stuck"
   ],
   "note": ""
  },
  {
   "property": "C69",
   "status": "proved",
   "theorems": [
    "QuickCache.Props.C69_bound",
    "QuickCache.Props.C69_increment"
   ],
   "note": ""
  },
  {
   "property": "C70",
   "status": "proved",
   "theorems": [
    "QuickCache.Props.C70_copy",
    "QuickCache.Props.C70_same",
    "QuickCache.Props.C70_history",
    "QuickCache.Props.C70_sizes",
    "QuickCache.Props.C70_panics",
    "QuickCache.Props.C70_lighter",
    "QuickCache.Props.C70_heavier"
   ],
   "note": ""
  },
  {
   "property": "C71",
   "status": "proved",
   "theorems": [
    "QuickCache.Props.C71_agree",
    "QuickCache.Props.C71_left",
    "QuickCache.Props.C71_next",
    "QuickCache.Props.C71_panics",
    "QuickCache.Props.C71_guard",
    "QuickCache.Props.C71_intact",
    "QuickCache.Props.C71_unsafe",
    "QuickCache.Props.C71_abort"
   ],
   "note": ""
  },
  {
   "property": "C72",
   "status": "proved",
   "theorems": [
    "QuickCache.Props.C72_flood",
    "QuickCache.Props.C72_first",
    "QuickCache.Props.C72_new",
    "QuickCache.Props.C72_needs_bound"
   ],
   "note": ""
  },
  {
   "property": "C73",
   "status": "proved",
   "theorems": [
    "QuickCache.Props.C73_left",
    "QuickCache.Props.C73_next",
    "QuickCache.Props.C73_panics",
    "QuickCache.Props.C73_one",
    "QuickCache.Props.C73_responsible",
    "QuickCache.Props.C73_progress",
    "QuickCache.Props.C73_finite",
    "QuickCache.Props.C73_end",
    "QuickCache.Props.C73_structure",
    "QuickCache.Props.C73_zombie",
    "QuickCache.Props.C73_unsafe",
    "QuickCache.Props.C73_stranded"
   ],
   "note": ""
  },
  {
   "property": "C74",
   "status": "proved",
   "theorems": [
    "QuickCache.Props.C74_calls",
    "QuickCache.Props.C74_sections",
    "QuickCache.Props.C74_guard",
    "QuickCache.Props.C74_agree",
    "QuickCache.Props.C74_spin"
   ],
   "note": ""
  },
  {
   "property": "C75",
   "status": "proved",
   "theorems": [
    "QuickCache.Props.C75_lookup",
    "QuickCache.Props.C75_contents",
    "QuickCache.Props.C75_refines",
    "QuickCache.Props.C75_policy",
    "QuickCache.Props.C75_panics",
    "QuickCache.Props.C75_pinned",
    "QuickCache.Props.C75_capacity",
    "QuickCache.Props.C75_linearizable",
    "QuickCache.Props.C75_asserts",
    "QuickCache.Props.C75_one",
    "QuickCache.Props.C75_responsible",
    "QuickCache.Props.C75_finite",
    "QuickCache.Props.C75_progress"
   ],
   "note": ""
  },
  {
   "property": "C76",
   "status": "proved",
   "theorems": [
    "QuickCache.Props.C76_refines",
    "QuickCache.Props.C76_settled",
    "QuickCache.Props.C76_ahead",
    "QuickCache.Props.C76_no_lost",
    "QuickCache.Props.C76_blocked",
    "QuickCache.Props.C76_waker",
    "QuickCache.Props.C76_asserts",
    "QuickCache.Props.C76_progress",
    "QuickCache.Props.C76_finite",
    "QuickCache.Props.C76_end"
   ],
   "note": ""
  },
  {
   "property": "C77",
   "status": "proved",
   "theorems": [
    "QuickCache.Props.C77_total",
    "QuickCache.Props.C77_average",
    "QuickCache.Props.C77_call",
    "QuickCache.Props.C77_histories",
    "QuickCache.Props.C77_pinned_false"
   ],
   "note": ""
  },
  {
   "property": "C78",
   "status": "proved",
   "theorems": [
    "QuickCache.Props.C78_calm",
    "QuickCache.Props.C78_panic",
    "QuickCache.Props.C78_intact",
    "QuickCache.Props.C78_next",
    "QuickCache.Props.C78_fine",
    "QuickCache.Props.C78_progress",
    "QuickCache.Props.C78_dead",
    "QuickCache.Props.C78_calls",
    "QuickCache.Props.C78_get",
    "QuickCache.Props.C78_insert",
    "QuickCache.Props.C78_drop",
    "QuickCache.Props.C78_loader",
    "QuickCache.Props.C78_notified",
    "QuickCache.Props.C78_hang",
    "QuickCache.Props.C78_doomed",
    "QuickCache.Props.C78_only",
    "QuickCache.Props.C78_abort",
    "QuickCache.Props.C78_hangs"
   ],
   "note": ""
  },
  {
   "property": "C79",
   "status": "proved",
   "theorems": [
    "QuickCache.Props.C79_no_lost",
    "QuickCache.Props.C79_sees",
    "QuickCache.Props.C79_late",
    "QuickCache.Props.C79_counter"
   ],
   "note": ""
  },
  {
   "property": "C80",
   "status": "proved",
   "theorems": [
    "QuickCache.Props.C80_len",
    "QuickCache.Props.C80_weight",
    "QuickCache.Props.C80_bound",
    "QuickCache.Props.C80_capacity",
    "QuickCache.Props.C80_empty",
    "QuickCache.Props.C80_hits",
    "QuickCache.Props.C80_misses",
    "QuickCache.Props.C80_visit",
    "QuickCache.Props.C80_clear",
    "QuickCache.Props.C80_retain",
    "QuickCache.Props.C80_panics",
    "QuickCache.Props.C80_waits",
    "QuickCache.Props.C80_finite"
   ],
   "note": ""
  },
  {
   "property": "C81",
   "status": "proved",
   "theorems": [
    "QuickCache.Props.C81_progress",
    "QuickCache.Props.C81_end",
    "QuickCache.Props.C81_stuck",
    "QuickCache.Props.C81_circle",
    "QuickCache.Props.C81_forever",
    "QuickCache.Props.C81_self",
    "QuickCache.Props.C81_ordered",
    "QuickCache.Props.C81_flat"
   ],
   "note": ""
  },
  {
   "property": "C82",
   "status": "proved",
   "theorems": [
    "QuickCache.Props.C82_fifo",
    "QuickCache.Props.C82_scan",
    "QuickCache.Props.C82_new",
    "QuickCache.Props.C82_jump"
   ],
   "note": ""
  },
  {
   "property": "C83",
   "status": "proved",
   "theorems": [
    "QuickCache.Props.C83_unsync"
   ],
   "note": ""
  },
  {
   "property": "C84",
   "status": "proved",
   "theorems": [
    "QuickCache.Props.C84_slab"
   ],
   "note": ""
  },
  {
   "property": "C85",
   "status": "proved",
   "theorems": [
    "QuickCache.Props.C85_sync"
   ],
   "note": ""
  },
  {
   "property": "C86",
   "status": "proved",
   "theorems": [
    "QuickCache.Props.C86_passes",
    "QuickCache.Props.C86_result",
    "QuickCache.Props.C86_entered",
    "QuickCache.Props.C86_progress",
    "QuickCache.Props.C86_finite",
    "QuickCache.Props.C86_completes"
   ],
   "note": ""
  },
  {
   "property": "C87",
   "status": "proved",
   "theorems": [
    "QuickCache.Props.C87_result",
    "QuickCache.Props.C87_fails",
    "QuickCache.Props.C87_progress"
   ],
   "note": ""
  },
  {
   "property": "C88",
   "status": "proved",
   "theorems": [
    "QuickCache.Props.C88_dictionary",
    "QuickCache.Props.C88_returns",
    "QuickCache.Props.C88_new"
   ],
   "note": ""
  },
  {
   "property": "C89",
   "status": "proved",
   "theorems": [
    "QuickCache.Props.C89_zero_weights",
    "QuickCache.Props.C89_change_weight",
    "QuickCache.Props.C89_equivalent",
    "QuickCache.Props.C89_get_or_insert",
    "QuickCache.Props.C89_retain"
   ],
   "note": ""
  },
  {
   "property": "C90",
   "status": "proved",
   "theorems": [
    "QuickCache.Props.C90_dictionary",
    "QuickCache.Props.C90_new"
   ],
   "note": ""
  },
  {
   "property": "C91",
   "status": "proved",
   "theorems": [
    "QuickCache.Props.C91_ends",
    "QuickCache.Props.C91_policy",
    "QuickCache.Props.C91_twin"
   ],
   "note": ""
  },
  {
   "property": "C92",
   "status": "proved",
   "theorems": [
    "QuickCache.Props.C92_dictionary",
    "QuickCache.Props.C92_new"
   ],
   "note": ""
  },
  {
   "property": "C93",
   "status": "proved",
   "theorems": [
    "QuickCache.Props.C93_new",
    "QuickCache.Props.C93_custom_cost",
    "QuickCache.Props.C93_borrow_keys",
    "QuickCache.Props.C93_get_or_insert",
    "QuickCache.Props.C93_retain"
   ],
   "note": ""
  },
  {
   "property": "C94",
   "status": "proved",
   "theorems": [
    "QuickCache.Props.C94_single",
    "QuickCache.Props.C94_shared"
   ],
   "note": ""
  },
  {
   "property": "C95",
   "status": "proved",
   "theorems": [
    "QuickCache.Props.C95_passes",
    "QuickCache.Props.C95_finite",
    "QuickCache.Props.C95_progress",
    "QuickCache.Props.C95_test"
   ],
   "note": ""
  },
  {
   "property": "C96",
   "status": "proved",
   "theorems": [
    "QuickCache.Props.C96_balance",
    "QuickCache.Props.C96_once",
    "QuickCache.Props.C96_inserted",
    "QuickCache.Props.C96_shared_balance",
    "QuickCache.Props.C96_shared_once",
    "QuickCache.Props.C96_shared_inserted"
   ],
   "note": ""
  },
  {
   "property": "C97",
   "status": "proved",
   "theorems": [
    "QuickCache.Props.C97_scan",
    "QuickCache.Props.C97_new",
    "QuickCache.Props.C97_example"
   ],
   "note": ""
  },
  {
   "property": "C98",
   "status": "proved",
   "theorems": [
    "QuickCache.Props.C98_cleared",
    "QuickCache.Props.C98_renewed",
    "QuickCache.Props.C98_exact",
    "QuickCache.Props.C98_slots",
    "QuickCache.Props.C98_items",
    "QuickCache.Props.C98_full",
    "QuickCache.Props.C98_safe",
    "QuickCache.Props.C98_returns"
   ],
   "note": ""
  },
  {
   "property": "C99",
   "status": "proved",
   "theorems": [
    "QuickCache.Props.C99_cleared",
    "QuickCache.Props.C99_leak",
    "QuickCache.Props.C99_memory",
    "QuickCache.Props.C99_ghosts",
    "QuickCache.Props.C99_tidy",
    "QuickCache.Props.C99_untidy"
   ],
   "note": ""
  }
 ]
}
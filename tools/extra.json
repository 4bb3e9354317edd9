{
 "C107": {
  "theorems": [
   "C106_minted"
  ],
  "of": [
   "C106"
  ]
 },
 "C108": {
  "theorems": [
   "C48_balances",
   "C48_authority",
   "C48_permissions",
   "C48_query"
  ],
  "of": [
   "C48"
  ]
 },
 "C109": {
  "theorems": [
   "C48_transfers",
   "C48_transfers_ok",
   "C48_burns",
   "C48_burns_ok",
   "C48_mints",
   "C48_mints_ok"
  ],
  "of": [
   "C48"
  ]
 },
 "C110": {
  "theorems": [
   "C48_classes",
   "C48_class_stable",
   "C48_class_create"
  ],
  "of": [
   "C48"
  ]
 },
 "C111": {
  "theorems": [
   "C13_authorized",
   "C13_static",
   "C13_all_or_nothing"
  ],
  "of": [
   "C13"
  ]
 },
 "C112": {
  "theorems": [
   "C10_create",
   "C10_numbers_unique"
  ],
  "of": [
   "C10"
  ]
 },
 "C113": {
  "theorems": [
   "C30_short",
   "C30_stable",
   "C30_rejects",
   "C30_used",
   "C30_frame"
  ],
  "of": [
   "C30"
  ]
 },
 "C114": {
  "theorems": [
   "C37_reads",
   "C37_has",
   "C37_flush",
   "C37_delete_iff"
  ],
  "of": [
   "C37"
  ]
 },
 "C115": {
  "theorems": [
   "C39_receipt",
   "C39_unique",
   "C40_bloom",
   "C40_filter_logs"
  ],
  "of": [
   "C39",
   "C40"
  ]
 },
 "C116": {
  "theorems": [
   "C41_consecutive",
   "C41_once",
   "C41_in_order",
   "C41_stale",
   "C41_drained"
  ],
  "of": [
   "C41"
  ]
 },
 "C117": {
  "theorems": [
   "C42_delivery",
   "C42_poll",
   "C42_uninstalled",
   "C42_no_deadlock",
   "C42_once"
  ],
  "of": [
   "C42"
  ]
 },
 "C118": {
  "theorems": [
   "C43_each_block_once",
   "C43_not_stuck",
   "C43_terminates",
   "C43_answer",
   "C43_next_base_fee",
   "C43_rewards_monotone",
   "C43_rewards",
   "C43_empty_block",
   "C43_no_panic",
   "C43_rejects",
   "C43_range"
  ],
  "of": [
   "C43"
  ]
 },
 "C119": {
  "theorems": [
   "C44_restrictions",
   "C44_modules",
   "C44_delegate",
   "C44_mint",
   "C44_burn",
   "C44_switches",
   "C44_admin",
   "C44_send_accepts",
   "C44_modules_accounts",
   "C44_supply_accounts",
   "C44_accounts"
  ],
  "of": [
   "C44"
  ]
 },
 "C120": {
  "theorems": [
   "C49_redeem",
   "C49_wrap",
   "C49_dust"
  ],
  "of": [
   "C49"
  ]
 },
 "C121": {
  "theorems": [
   "C51_blocks",
   "C51_by_hash",
   "C51_by_hash_moving",
   "C51_past_number",
   "C51_default",
   "C51_neither"
  ],
  "of": [
   "C51"
  ]
 },
 "C122": {
  "theorems": [
   "C52_hex",
   "C52_roundtrip",
   "C79_access",
   "C79_access_shape",
   "C102_storage",
   "C102_storage_refused"
  ],
  "of": [
   "C52",
   "C79",
   "C102"
  ]
 },
 "C123": {
  "theorems": [
   "C58_amount_texts",
   "C58_signed_texts",
   "C58_amount",
   "C83_decimal",
   "C83_hex",
   "C83_hex_fits"
  ],
  "of": [
   "C58",
   "C83"
  ]
 },
 "C124": {
  "theorems": [
   "C60_mutual_exclusion",
   "C60_no_panic",
   "C60_progress",
   "C60_no_leak"
  ],
  "of": [
   "C60"
  ]
 },
 "C125": {
  "theorems": [
   "C83_json",
   "C83_message",
   "C83_message_unique",
   "C86_json",
   "C86_json_unique",
   "C86_accepts",
   "C86_decodes",
   "C86_canonical"
  ],
  "of": [
   "C83",
   "C86"
  ]
 },
 "C126": {
  "theorems": [
   "C81_payer",
   "C81_rejected",
   "C81_included",
   "C81_failed",
   "C81_succeeded",
   "C81_pays",
   "C81_refund_paid",
   "C81_collected"
  ],
  "of": [
   "C81"
  ]
 },
 "C127": {
  "theorems": [
   "C84_paid",
   "C84_types",
   "C84_limit",
   "C84_underpaid",
   "C84_wallet",
   "C84_chain",
   "C84_covered",
   "C84_threshold",
   "C84_member"
  ],
  "of": [
   "C84"
  ]
 },
 "C128": {
  "theorems": [
   "C86_never_plain",
   "C86_message"
  ],
  "of": [
   "C86"
  ]
 },
 "C129": {
  "theorems": [
   "C88_exact",
   "C88_listed"
  ],
  "of": [
   "C88"
  ]
 },
 "C130": {
  "theorems": [
   "C89_kept",
   "C89_works",
   "C89_lost"
  ],
  "of": [
   "C89"
  ]
 },
 "C131": {
  "theorems": [
   "C90_entries",
   "C90_holders"
  ],
  "of": [
   "C90"
  ]
 },
 "C132": {
  "theorems": [
   "C95_balances",
   "C95_supplies",
   "C95_page",
   "C95_whole",
   "C95_ends",
   "C95_total"
  ],
  "of": [
   "C95"
  ]
 },
 "C133": {
  "theorems": [
   "C101_rollback",
   "C101_exact",
   "C101_executed"
  ],
  "of": [
   "C101"
  ]
 },
 "C134": {
  "theorems": [
   "C103_scope",
   "C103_valid",
   "C103_hashes",
   "C103_factory",
   "C103_succeeds"
  ],
  "of": [
   "C103"
  ]
 },
 "C135": {
  "theorems": [
   "C105_block",
   "C105_time",
   "C105_random",
   "C105_random_call",
   "C105_origin"
  ],
  "of": [
   "C105"
  ]
 },
 "C136": {
  "theorems": [
   "C104_each",
   "C104_order"
  ],
  "of": [
   "C104"
  ]
 },
 "C137": {
  "theorems": [
   "C91_estimate",
   "C91_succeeds",
   "C91_message",
   "C91_iff"
  ],
  "of": [
   "C91"
  ]
 },
 "C138": {
  "theorems": [
   "C93_paid",
   "C93_cumulative",
   "C93_header",
   "C93_beyond"
  ],
  "of": [
   "C93"
  ]
 },
 "C139": {
  "theorems": [
   "C94_address_back",
   "C94_text_back",
   "C94_message_identity",
   "C94_blocked",
   "C94_denom_back"
  ],
  "of": [
   "C94"
  ]
 },
 "C140": {
  "theorems": [
   "C66_import",
   "C66_settings",
   "C67_send_enabled"
  ],
  "of": [
   "C66",
   "C67"
  ]
 },
 "C141": {
  "theorems": [
   "C76_enough",
   "C76_exact",
   "C74_affordable"
  ],
  "of": [
   "C76",
   "C74"
  ]
 },
 "C142": {
  "theorems": [
   "C102_code",
   "C102_version",
   "C102_version_default",
   "C96_base"
  ],
  "of": [
   "C102",
   "C96"
  ]
 },
 "C147": {
  "theorems": [
   "C145_success",
   "C145_only",
   "C145_distinct"
  ],
  "of": [
   "C145"
  ]
 },
 "C148": {
  "theorems": [
   "C146_whitelist",
   "C146_paths",
   "C146_own_objects"
  ],
  "of": [
   "C146"
  ]
 },
 "C169": {
  "theorems": [
   "C168_transaction",
   "C168_receipt",
   "C168_logs"
  ],
  "of": [
   "C168"
  ]
 },
 "C170": {
  "theorems": [
   "C36_ack_result",
   "C36_timeout_result",
   "C36_ack_state",
   "C36_timeout_state",
   "C36_ack_runs",
   "C36_timeout_runs",
   "C36_gas",
   "C36_gas_or_success",
   "C36_gas_exact",
   "C87_crash"
  ],
  "of": [
   "C36"
  ]
 },
 "C171": {
  "theorems": [
   "C162_reads",
   "C162_chain",
   "C162_agree",
   "C162_distinct",
   "C162_oracle",
   "C162_told"
  ],
  "of": [
   "C162"
  ]
 },
 "C172": {
  "theorems": [
   "C35_plain",
   "C35_calls",
   "C35_success",
   "C35_malformed",
   "C35_atomic",
   "C35_intermediate",
   "C35_separate",
   "C35_gas_or_ack"
  ],
  "of": [
   "C35"
  ]
 },
 "C157": {
  "theorems": [
   "C155_syncing"
  ],
  "of": [
   "C155"
  ]
 }
}
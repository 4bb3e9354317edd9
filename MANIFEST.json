{
 "claims": [
  {
   "property": "C01",
   "status": "partial",
   "theorems": [
    "Verif.Props.CacheMarks.C01_exact",
    "Verif.Props.CacheMarks.C01_one_violated",
    "Verif.Props.CacheMarks.C01_abort_violated",
    "Verif.Props.CacheStack.C01_violated",
    "Verif.Props.CacheStack.C01_violated_loses_everything",
    "Verif.Props.CacheStack.C01_history_partial",
    "Verif.Props.CacheStack.C01_reads_partial",
    "Verif.Props.CacheStack.C01_tree_partial",
    "Verif.Props.CacheStack.C01_repaired_history",
    "Verif.Props.CacheStack.C01_repaired_tree",
    "Verif.Props.CacheMarks.C01_abort_exact",
    "Verif.Props.Frames.C01_typed_exact",
    "Verif.Props.Frames.C01_typed_partial",
    "Verif.Props.Frames.C01_typed_repaired"
   ],
   "note": "The full statement is false of the code: negation proved in C01_one_violated, C01_abort_violated, C01_violated, C01_violated_loses_everything; the parts that hold are proved."
  },
  {
   "property": "C02",
   "status": "partial",
   "theorems": [
    "Verif.Props.CacheStack.C02_violated",
    "Verif.Props.CacheStack.C02_partial",
    "Verif.Props.CacheStack.C02_tree_partial",
    "Verif.Props.CacheStack.C02_repaired",
    "Verif.Props.CacheMarks.C02_marks_partial",
    "Verif.Props.CacheMarks.C02_steady_partial",
    "Verif.Props.CacheMarks.C02_two_violated"
   ],
   "note": "The full statement is false of the code: negation proved in C02_violated, C02_two_violated; the parts that hold are proved."
  },
  {
   "property": "C03",
   "status": "proved",
   "theorems": [
    "Verif.Props.World.C03_keys",
    "Verif.Props.World.C03_storage_last_write",
    "Verif.Props.World.C03_setState_code",
    "Verif.Props.World.C03_setCode_frame"
   ],
   "note": ""
  },
  {
   "property": "C04",
   "status": "proved",
   "theorems": [
    "Verif.Props.World.C04_code_consistent",
    "Verif.Props.World.C04_no_code"
   ],
   "note": ""
  },
  {
   "property": "C05",
   "status": "partial",
   "theorems": [
    "Verif.Props.World.C05_violated",
    "Verif.Props.World.C05_violated_all",
    "Verif.Props.World.C05_partial",
    "Verif.Props.World.C05_exact",
    "Verif.Props.World.C05_iff"
   ],
   "note": "The full statement is false of the code: negation proved in C05_violated, C05_violated_all; the parts that hold are proved."
  },
  {
   "property": "C06",
   "status": "proved",
   "theorems": [
    "Verif.Props.Eth.C06_commit_frame",
    "Verif.Props.World.C06_commit",
    "Verif.Props.World.C06_only_created",
    "Verif.Props.World.C06_balance"
   ],
   "note": ""
  },
  {
   "property": "C07",
   "status": "partial",
   "theorems": [
    "Verif.Props.Frames.C07_exact",
    "Verif.Props.Frames.C07_iff",
    "Verif.Props.Frames.C07_partial",
    "Verif.Props.Frames.C07_repaired",
    "Verif.Props.Frames.C07_violated",
    "Verif.Props.World.C07_logs"
   ],
   "note": "The full statement is false of the code: negation proved in C07_violated; the parts that hold are proved."
  },
  {
   "property": "C08",
   "status": "proved",
   "theorems": [
    "Verif.Props.Exec.C08_charge",
    "Verif.Props.World.C08_refund_counter",
    "Verif.Props.World.C08_refund_underflow"
   ],
   "note": ""
  },
  {
   "property": "C09",
   "status": "proved",
   "theorems": [
    "Verif.Props.World.C09_access_exact",
    "Verif.Props.World.C09_prepare",
    "Verif.Props.World.C09_slot_implies_address"
   ],
   "note": ""
  },
  {
   "property": "C10",
   "status": "partial",
   "theorems": [
    "Verif.Props.PrecompileCtx.C10_violated",
    "Verif.Props.PrecompileCtx.C10_without_precompile",
    "Verif.Props.World.C10_create",
    "Verif.Props.World.C10_numbers_unique"
   ],
   "note": "The full statement is false of the code: negation proved in C10_violated; the parts that hold are proved."
  },
  {
   "property": "C11",
   "status": "partial",
   "theorems": [
    "Verif.Props.Exec.C11_partial",
    "Verif.Props.Exec.C11_exact",
    "Verif.Props.Exec.C11_violated",
    "Verif.Props.Exec.C11_static",
    "Verif.Nested.C11_nested"
   ],
   "note": "The full statement is false of the code: negation proved in C11_violated; the parts that hold are proved."
  },
  {
   "property": "C12",
   "status": "proved",
   "theorems": [
    "Verif.Props.Exec.C12_gas",
    "Verif.Props.Exec.C12_charge",
    "Verif.Props.Exec.C12_readonly"
   ],
   "note": ""
  },
  {
   "property": "C13",
   "status": "partial",
   "theorems": [
    "Verif.Props.Exec.C13_authorized",
    "Verif.Props.Exec.C13_static",
    "Verif.Props.Exec.C13_order_partial",
    "Verif.Props.Exec.C13_exact",
    "Verif.Props.Exec.C13_order_iff",
    "Verif.Props.Exec.C13_violated",
    "Verif.Props.Exec.C13_all_or_nothing",
    "Verif.Props.Exec.C13_no_signers"
   ],
   "note": "The full statement is false of the code: negation proved in C13_violated; the parts that hold are proved."
  },
  {
   "property": "C14",
   "status": "proved",
   "theorems": [
    "Verif.Props.Fees.C14_low",
    "Verif.Props.Fees.C14_high",
    "Verif.Props.Fees.C14_gwei"
   ],
   "note": ""
  },
  {
   "property": "C15",
   "status": "proved",
   "theorems": [
    "Verif.Props.Fees.C15_fee",
    "Verif.Props.Fees.C15_least",
    "Verif.Props.Fees.C15_mono"
   ],
   "note": ""
  },
  {
   "property": "C16",
   "status": "proved",
   "theorems": [
    "Verif.Props.Fees.C16_bound",
    "Verif.Props.Fees.C16_least",
    "Verif.Props.Fees.C16_none",
    "Verif.Props.Fees.C16_recipient"
   ],
   "note": ""
  },
  {
   "property": "C17",
   "status": "proved",
   "theorems": [
    "Verif.Props.TxUtils.C17_roundtrip",
    "Verif.Props.TxUtils.C17_accepts",
    "Verif.Props.TxUtils.C17_recognised"
   ],
   "note": ""
  },
  {
   "property": "C18",
   "status": "partial",
   "theorems": [
    "Verif.Props.TxUtils.C18_partial",
    "Verif.Props.TxUtils.C18_violated_fee",
    "Verif.Props.TxUtils.C18_violated_message",
    "Verif.Props.TxUtils.C18_violated_access",
    "Verif.Props.TxUtils.C18_violated_value",
    "Verif.Props.TxUtils.C18_violated_negative",
    "Verif.Props.TxUtils.C18_fee_denom",
    "Verif.Props.TxUtils.C18_types"
   ],
   "note": "The full statement is false of the code: negation proved in C18_violated_fee, C18_violated_message, C18_violated_access, C18_violated_value, C18_violated_negative; the parts that hold are proved."
  },
  {
   "property": "C19",
   "status": "proved",
   "theorems": [
    "Verif.Props.SigAnte.C19_sound",
    "Verif.Props.SigAnte.C19_unverified",
    "Verif.Props.SigAnte.C19_keys",
    "Verif.Props.SigAnte.C19_eth_signer"
   ],
   "note": ""
  },
  {
   "property": "C20",
   "status": "partial",
   "theorems": [
    "Verif.Props.SigAnte.C20_success_partial",
    "Verif.Props.SigAnte.C20_strict_partial",
    "Verif.Props.SigAnte.C20_failure_partial",
    "Verif.Props.SigAnte.C20_violated_failed",
    "Verif.Props.SigAnte.C20_violated_long",
    "Verif.Props.SigAnte.C20_violated_rewind",
    "Verif.Props.SigAnte.C20_violated_hook",
    "Verif.Props.SigAnte.C20_hook_partial",
    "Verif.Props.SigAnte.C20_exact",
    "Verif.Props.SigAnte.C20_replay_iff"
   ],
   "note": "The full statement is false of the code: negation proved in C20_violated_failed, C20_violated_long, C20_violated_rewind, C20_violated_hook; the parts that hold are proved."
  },
  {
   "property": "C21",
   "status": "partial",
   "theorems": [
    "Verif.Props.Denom.C21_partial",
    "Verif.Props.Denom.C21_violated",
    "Verif.Props.Denom.C21_exact",
    "Verif.Props.Denom.C21_alias"
   ],
   "note": "The full statement is false of the code: negation proved in C21_violated; the parts that hold are proved."
  },
  {
   "property": "C22",
   "status": "partial",
   "theorems": [
    "Verif.Props.Denom.C22_name_resolves",
    "Verif.Props.Denom.C22_partial",
    "Verif.Props.Denom.C22_violated",
    "Verif.Props.Denom.C22_exact"
   ],
   "note": "The full statement is false of the code: negation proved in C22_violated; the parts that hold are proved."
  },
  {
   "property": "C23",
   "status": "proved",
   "theorems": [
    "Verif.Props.Registry.C23_chain",
    "Verif.Props.Tokens.C23_supply",
    "Verif.Props.Tokens.C23_step"
   ],
   "note": ""
  },
  {
   "property": "C24",
   "status": "proved",
   "theorems": [
    "Verif.Props.Tokens.C24_spend",
    "Verif.Props.Tokens.C24_mint",
    "Verif.Props.Tokens.C24_blocked",
    "Verif.Props.Tokens.C24_grants"
   ],
   "note": ""
  },
  {
   "property": "C25",
   "status": "partial",
   "theorems": [
    "Verif.Props.Ledger.C25_partial",
    "Verif.Props.Ledger.C25_accepts",
    "Verif.Props.Ledger.C25_exact",
    "Verif.Props.Ledger.C25_iff",
    "Verif.Props.Ledger.C25_violated"
   ],
   "note": "The full statement is false of the code: negation proved in C25_violated; the parts that hold are proved."
  },
  {
   "property": "C26",
   "status": "partial",
   "theorems": [
    "Verif.Props.Ledger.C26_exact",
    "Verif.Props.Ledger.C26_iff",
    "Verif.Props.Ledger.C26_partial",
    "Verif.Props.Ledger.C26_pool_partial",
    "Verif.Props.Ledger.C26_violated"
   ],
   "note": "The full statement is false of the code: negation proved in C26_violated; the parts that hold are proved."
  },
  {
   "property": "C27",
   "status": "proved",
   "theorems": [
    "Verif.Props.Ledger.C27_mint",
    "Verif.Props.Ledger.C27_third_party",
    "Verif.Props.Ledger.C27_creates",
    "Verif.Props.Ledger.C27_refuses"
   ],
   "note": ""
  },
  {
   "property": "C28",
   "status": "partial",
   "theorems": [
    "Verif.Props.Registry.C28_partial",
    "Verif.Props.Registry.C28_violated",
    "Verif.Props.Registry.C28_sound",
    "Verif.Props.Registry.C28_missing",
    "Verif.Props.Registry.C28_heals"
   ],
   "note": "The full statement is false of the code: negation proved in C28_violated; the parts that hold are proved."
  },
  {
   "property": "C29",
   "status": "proved",
   "theorems": [
    "Verif.Props.Registry.C29_entry",
    "Verif.Props.Registry.C29_stays",
    "Verif.Props.Registry.C29_factory_only",
    "Verif.Props.Registry.C29_register"
   ],
   "note": ""
  },
  {
   "property": "C30",
   "status": "partial",
   "theorems": [
    "Verif.Props.Identity.C30_partial",
    "Verif.Props.Identity.C30_short",
    "Verif.Props.Identity.C30_stable",
    "Verif.Props.Identity.C30_rejects",
    "Verif.Props.Identity.C30_used",
    "Verif.Props.Identity.C30_frame",
    "Verif.Props.Identity.C30_violated",
    "Verif.Props.Identity.C30_exact",
    "Verif.Props.Identity.C30_keyed"
   ],
   "note": "The full statement is false of the code: negation proved in C30_violated; the parts that hold are proved."
  },
  {
   "property": "C31",
   "status": "partial",
   "theorems": [
    "Verif.Props.Params.C31_window_partial",
    "Verif.Props.Params.C31_opcode_partial",
    "Verif.Props.Params.C31_violated",
    "Verif.Props.Params.C31_restart_partial",
    "Verif.Props.Params.C31_zero_height_violated",
    "Verif.Props.Params.C31_shrink_violated"
   ],
   "note": "The full statement is false of the code: negation proved in C31_violated, C31_zero_height_violated, C31_shrink_violated; the parts that hold are proved."
  },
  {
   "property": "C32",
   "status": "proved",
   "theorems": [
    "Verif.Props.Params.C32_update",
    "Verif.Props.Params.C32_history",
    "Verif.Props.Params.C32_newest"
   ],
   "note": ""
  },
  {
   "property": "C33",
   "status": "partial",
   "theorems": [
    "Verif.Props.Params.C33_refused",
    "Verif.Props.Params.C33_allowed",
    "Verif.Props.Params.C33_account",
    "Verif.Props.Params.C33_spelling_violated",
    "Verif.Props.Params.C33_exact"
   ],
   "note": "The full statement is false of the code: negation proved in C33_spelling_violated; the parts that hold are proved."
  },
  {
   "property": "C34",
   "status": "proved",
   "theorems": [
    "Verif.Props.Genesis.C34_classes",
    "Verif.Props.Genesis.C34_roundtrip",
    "Verif.Props.Genesis.C34_export_again",
    "Verif.Props.Genesis.C34_running",
    "Verif.Props.Genesis.C34_start",
    "Verif.Props.Genesis.C34_hashes"
   ],
   "note": ""
  },
  {
   "property": "C35",
   "status": "partial",
   "theorems": [
    "Verif.Props.HookGas.C35_gas_or_ack",
    "Verif.Props.HookGas.C35_gas_violated",
    "Verif.Props.HookGas.C35_crash_violated",
    "Verif.Hooks.C35_plain",
    "Verif.Hooks.C35_calls",
    "Verif.Hooks.C35_success",
    "Verif.Hooks.C35_malformed",
    "Verif.Hooks.C35_atomic",
    "Verif.Hooks.C35_intermediate",
    "Verif.Hooks.C35_separate"
   ],
   "note": "The full statement is false of the code: negation proved in C35_gas_violated, C35_crash_violated; the parts that hold are proved."
  },
  {
   "property": "C36",
   "status": "partial",
   "theorems": [
    "Verif.Props.HookGas.C36_gas",
    "Verif.Props.HookGas.C36_gas_or_success",
    "Verif.Props.HookGas.C36_gas_exact",
    "Verif.Props.HookGas.C36_blocked_violated",
    "Verif.Props.HookGas.C36_batch_violated",
    "Verif.Props.HookGas.C36_crash_violated",
    "Verif.Hooks.C36_ack_result",
    "Verif.Hooks.C36_timeout_result",
    "Verif.Hooks.C36_ack_state",
    "Verif.Hooks.C36_timeout_state",
    "Verif.Hooks.C36_ack_runs",
    "Verif.Hooks.C36_timeout_runs"
   ],
   "note": "The full statement is false of the code: negation proved in C36_blocked_violated, C36_batch_violated, C36_crash_violated; the parts that hold are proved."
  },
  {
   "property": "C37",
   "status": "partial",
   "theorems": [
    "Verif.IndexStore.C37_reads",
    "Verif.IndexStore.C37_has",
    "Verif.IndexStore.C37_answers",
    "Verif.IndexStore.C37_flush",
    "Verif.IndexStore.C37_delete_partial",
    "Verif.IndexStore.C37_delete_iff",
    "Verif.IndexStore.C37_delete_violated",
    "Verif.IndexStore.C37_race_violated"
   ],
   "note": "The full statement is false of the code: negation proved in C37_delete_violated, C37_race_violated; the parts that hold are proved."
  },
  {
   "property": "C38",
   "status": "partial",
   "theorems": [
    "Verif.Indexer.C38_answered",
    "Verif.Indexer.C38_partial",
    "Verif.Indexer.C38_no_block",
    "Verif.Indexer.C38_block_by_hash",
    "Verif.Indexer.C38_violated",
    "Verif.Indexer.C38_abort_violated",
    "Verif.Indexer.C38_duplicate_violated"
   ],
   "note": "The full statement is false of the code: negation proved in C38_violated, C38_abort_violated, C38_duplicate_violated; the parts that hold are proved."
  },
  {
   "property": "C39",
   "status": "partial",
   "theorems": [
    "Verif.Indexer.C39_partial",
    "Verif.Indexer.C39_receipt",
    "Verif.Indexer.C39_unique",
    "Verif.Indexer.C39_violated",
    "Verif.Indexer.C39_event_violated"
   ],
   "note": "The full statement is false of the code: negation proved in C39_violated, C39_event_violated; the parts that hold are proved."
  },
  {
   "property": "C40",
   "status": "partial",
   "theorems": [
    "Verif.LogFilter.C40_bloom",
    "Verif.LogFilter.C40_partial",
    "Verif.LogFilter.C40_by_hash_partial",
    "Verif.LogFilter.C40_filter_logs",
    "Verif.LogFilter.C40_gap_violated",
    "Verif.LogFilter.C40_lagging_violated",
    "Verif.LogFilter.C40_zero_hash_violated",
    "Verif.LogFilter.C40_exact"
   ],
   "note": "The full statement is false of the code: negation proved in C40_gap_violated, C40_lagging_violated, C40_zero_hash_violated; the parts that hold are proved."
  },
  {
   "property": "C41",
   "status": "partial",
   "theorems": [
    "Verif.SendQueue.C41_consecutive",
    "Verif.SendQueue.C41_once",
    "Verif.SendQueue.C41_in_order",
    "Verif.SendQueue.C41_stale",
    "Verif.SendQueue.C41_waits_partial",
    "Verif.SendQueue.C41_drained",
    "Verif.SendQueue.C41_evicted_violated"
   ],
   "note": "The full statement is false of the code: negation proved in C41_evicted_violated; the parts that hold are proved."
  },
  {
   "property": "C42",
   "status": "partial",
   "theorems": [
    "Verif.Filters.C42_delivery",
    "Verif.Filters.C42_poll",
    "Verif.Filters.C42_uninstalled",
    "Verif.Filters.C42_kept_partial",
    "Verif.Filters.C42_no_deadlock",
    "Verif.Filters.C42_order_partial",
    "Verif.Filters.C42_once",
    "Verif.Filters.C42_new_filter_violated",
    "Verif.Filters.C42_unpolled_violated",
    "Verif.Filters.C42_order_violated",
    "Verif.Filters.C42_kept_iff"
   ],
   "note": "The full statement is false of the code: negation proved in C42_new_filter_violated, C42_unpolled_violated, C42_order_violated; the parts that hold are proved."
  },
  {
   "property": "C43",
   "status": "partial",
   "theorems": [
    "Verif.FeeHistory.C43_each_block_once",
    "Verif.FeeHistory.C43_not_stuck",
    "Verif.FeeHistory.C43_terminates",
    "Verif.FeeHistory.C43_answer",
    "Verif.FeeHistory.C43_base_fee_partial",
    "Verif.FeeHistory.C43_next_base_fee",
    "Verif.FeeHistory.C43_rewards_monotone",
    "Verif.FeeHistory.C43_rewards",
    "Verif.FeeHistory.C43_empty_block",
    "Verif.FeeHistory.C43_no_panic",
    "Verif.FeeHistory.C43_database",
    "Verif.FeeHistory.C43_rejects",
    "Verif.FeeHistory.C43_range",
    "Verif.FeeHistory.C43_right_block_partial",
    "Verif.FeeHistory.C43_block_zero_violated",
    "Verif.FeeHistory.C43_base_fee_violated",
    "Verif.FeeHistory.C43_base_fee_exact",
    "Verif.FeeHistory.C43_base_fee_iff"
   ],
   "note": "The full statement is false of the code: negation proved in C43_block_zero_violated, C43_base_fee_violated; the parts that hold are proved."
  },
  {
   "property": "C44",
   "status": "partial",
   "theorems": [
    "Verif.Props.Bank.C44_restrictions",
    "Verif.Props.Bank.C44_send_partial",
    "Verif.Props.Bank.C44_accounts",
    "Verif.Props.Bank.C44_blocked_violated",
    "Verif.Props.Bank.C44_blocked_partial",
    "Verif.Props.Bank.C44_redirect_violated",
    "Verif.Props.Bank.C44_delegate_violated",
    "Verif.Props.Bank.C44_modules",
    "Verif.Props.Bank.C44_delegate",
    "Verif.Props.Bank.C44_mint",
    "Verif.Props.Bank.C44_burn",
    "Verif.Props.Bank.C44_switches",
    "Verif.Props.Bank.C44_admin",
    "Verif.Props.Bank.C44_send_accepts",
    "Verif.Props.Bank.C44_credited_iff",
    "Verif.Props.Bank.C44_blocked_only",
    "Verif.Props.ModuleBank.C44_modules_accounts",
    "Verif.Props.ModuleBank.C44_supply_accounts",
    "Verif.Props.RefusalExact.C44_switches_iff"
   ],
   "note": "The full statement is false of the code: negation proved in C44_blocked_violated, C44_redirect_violated, C44_delegate_violated; the parts that hold are proved."
  },
  {
   "property": "C45",
   "status": "partial",
   "theorems": [
    "Verif.Props.Fees.C45_partial",
    "Verif.Props.Fees.C45_violated",
    "Verif.Props.Fees.C45_iff"
   ],
   "note": "The full statement is false of the code: negation proved in C45_violated; the parts that hold are proved."
  },
  {
   "property": "C46",
   "status": "proved",
   "theorems": [
    "Verif.Props.Query.C46_call",
    "Verif.Props.Query.C46_eth_call",
    "Verif.Props.Query.C46_estimate_gas",
    "Verif.Props.Query.C46_same_answer",
    "Verif.Props.Query.C46_static"
   ],
   "note": ""
  },
  {
   "property": "C47",
   "status": "partial",
   "theorems": [
    "Verif.Props.Exec.C47_create_partial",
    "Verif.Props.Exec.C47_violated",
    "Verif.Props.Exec.C47_iff"
   ],
   "note": "The full statement is false of the code: negation proved in C47_violated; the parts that hold are proved."
  },
  {
   "property": "C48",
   "status": "partial",
   "theorems": [
    "Verif.Props.Nft.C48_balances",
    "Verif.Props.Nft.C48_authority",
    "Verif.Props.Nft.C48_permissions",
    "Verif.Props.Nft.C48_class",
    "Verif.Props.Nft.C48_transfers",
    "Verif.Props.Nft.C48_transfers_ok",
    "Verif.Props.Nft.C48_burns",
    "Verif.Props.Nft.C48_burns_ok",
    "Verif.Props.Nft.C48_mints",
    "Verif.Props.Nft.C48_mints_ok",
    "Verif.Props.Nft.C48_classes",
    "Verif.Props.Nft.C48_class_stable",
    "Verif.Props.Nft.C48_class_create",
    "Verif.Props.Nft.C48_ids_partial",
    "Verif.Props.Nft.C48_query",
    "Verif.Props.Nft.C48_ids_violated",
    "Verif.Props.Nft.C48_nocode_violated",
    "Verif.Props.Nft.C48_evm_class_violated",
    "Verif.Props.Nft.C48_alias_violated"
   ],
   "note": "The full statement is false of the code: negation proved in C48_ids_violated, C48_nocode_violated, C48_evm_class_violated, C48_alias_violated; the parts that hold are proved."
  },
  {
   "property": "C49",
   "status": "partial",
   "theorems": [
    "Verif.Props.WrapSend.C49_drain_violated",
    "Verif.Props.WrapSend.C49_injection_violated",
    "Verif.Props.Wrapper.C49_solvent_partial",
    "Verif.Props.Wrapper.C49_redeem",
    "Verif.Props.Wrapper.C49_wrap",
    "Verif.Props.Wrapper.C49_dust",
    "Verif.Props.Wrapper.C49_refund_never_partial",
    "Verif.Props.Wrapper.C49_refund_violated",
    "Verif.Props.Wrapper.C49_callback",
    "Verif.Props.Wrapper.C49_nested_violated",
    "Verif.Props.Wrapper.C49_records",
    "Verif.Props.Wrapper.C49_records_stay",
    "Verif.Props.Wrapper.C49_wrap_iff",
    "Verif.Props.Wrapper.C49_unwrap_iff"
   ],
   "note": "The full statement is false of the code: negation proved in C49_drain_violated, C49_injection_violated, C49_refund_violated, C49_nested_violated; the parts that hold are proved."
  },
  {
   "property": "C50",
   "status": "proved",
   "theorems": [
    "Verif.Hooks.C50_channel",
    "Verif.Hooks.C50_channel_bare",
    "Verif.Hooks.C50_short",
    "Verif.Hooks.C50_denom",
    "Verif.Hooks.C50_class",
    "Verif.Hooks.C50_roundtrip"
   ],
   "note": ""
  },
  {
   "property": "C51",
   "status": "partial",
   "theorems": [
    "Verif.BlockTag.C51_blocks",
    "Verif.BlockTag.C51_by_hash",
    "Verif.BlockTag.C51_by_hash_moving",
    "Verif.BlockTag.C51_state_partial",
    "Verif.BlockTag.C51_past_number",
    "Verif.BlockTag.C51_index_violated",
    "Verif.BlockTag.C51_index_partial",
    "Verif.BlockTag.C51_default",
    "Verif.BlockTag.C51_neither",
    "Verif.BlockTag.C51_estimate_partial",
    "Verif.BlockTag.C51_earliest_violated",
    "Verif.BlockTag.C51_earliest_count_violated",
    "Verif.BlockTag.C51_future_violated",
    "Verif.BlockTag.C51_unknown_hash_violated",
    "Verif.BlockTag.C51_race_violated",
    "Verif.BlockTag.C51_balance_violated",
    "Verif.BlockTag.C51_estimate_violated"
   ],
   "note": "The full statement is false of the code: negation proved in C51_index_violated, C51_earliest_violated, C51_earliest_count_violated, C51_future_violated, C51_unknown_hash_violated, C51_race_violated, C51_balance_violated, C51_estimate_violated; the parts that hold are proved."
  },
  {
   "property": "C52",
   "status": "partial",
   "theorems": [
    "Verif.ReadText.C52_exact",
    "Verif.ReadText.C52_confused_iff",
    "Verif.Props.TxUtils.C52_hex",
    "Verif.Props.TxUtils.C52_roundtrip",
    "Verif.Props.TxUtils.C52_sound_partial",
    "Verif.Props.TxUtils.C52_violated"
   ],
   "note": "The full statement is false of the code: negation proved in C52_violated; the parts that hold are proved."
  },
  {
   "property": "C53",
   "status": "proved",
   "theorems": [
    "Verif.Props.Fees.C53_range",
    "Verif.Props.Fees.C53_value"
   ],
   "note": ""
  },
  {
   "property": "C54",
   "status": "proved",
   "theorems": [
    "Verif.Props.World.C54_step",
    "Verif.Props.World.C54_isolated",
    "Verif.Props.World.C54_fresh"
   ],
   "note": ""
  },
  {
   "property": "C55",
   "status": "partial",
   "theorems": [
    "Verif.Props.CacheStack.C55_partial",
    "Verif.Props.CacheStack.C55_violated",
    "Verif.Props.CacheStack.C55_repaired",
    "Verif.Props.CacheMarks.C55_marks_partial"
   ],
   "note": "The full statement is false of the code: negation proved in C55_violated; the parts that hold are proved."
  },
  {
   "property": "C56",
   "status": "partial",
   "theorems": [
    "Verif.Props.PrecompileCtx.C56_violated_revert",
    "Verif.Props.PrecompileCtx.C56_violated_stale",
    "Verif.Props.PrecompileCtx.C56_partial",
    "Verif.Props.PrecompileMarks.C56_exact",
    "Verif.Props.PrecompileMarks.C56_beside_violated",
    "Verif.Props.PrecompileMarks.C56_kept_violated"
   ],
   "note": "The full statement is false of the code: negation proved in C56_violated_revert, C56_violated_stale, C56_beside_violated, C56_kept_violated; the parts that hold are proved."
  },
  {
   "property": "C57",
   "status": "partial",
   "theorems": [
    "Verif.Props.Fees.C57_partial",
    "Verif.Props.Fees.C57_iff",
    "Verif.Props.Fees.C57_violated"
   ],
   "note": "The full statement is false of the code: negation proved in C57_violated; the parts that hold are proved."
  },
  {
   "property": "C58",
   "status": "partial",
   "theorems": [
    "Verif.Text.C58_amount_texts",
    "Verif.Text.C58_signed_texts",
    "Verif.Hooks.C58_partial",
    "Verif.Hooks.C58_violated",
    "Verif.Hooks.C58_evm_violated",
    "Verif.Hooks.C58_exact",
    "Verif.Hooks.C58_nft_exact",
    "Verif.Hooks.C58_spender_iff",
    "Verif.Hooks.C58_bech_violated",
    "Verif.Hooks.C58_nft_partial",
    "Verif.Hooks.C58_nft_evm_violated",
    "Verif.Hooks.C58_amount",
    "Verif.Hooks.C58_amount_violated"
   ],
   "note": "The full statement is false of the code: negation proved in C58_violated, C58_evm_violated, C58_bech_violated, C58_nft_evm_violated, C58_amount_violated; the parts that hold are proved."
  },
  {
   "property": "C59",
   "status": "partial",
   "theorems": [
    "Verif.Indexer.C59_exact",
    "Verif.Indexer.C59_answered",
    "Verif.Indexer.C59_violated",
    "Verif.Indexer.C59_partial"
   ],
   "note": "The full statement is false of the code: negation proved in C59_violated; the parts that hold are proved."
  },
  {
   "property": "C60",
   "status": "partial",
   "theorems": [
    "Verif.LockTable.C60_mutual_exclusion",
    "Verif.LockTable.C60_no_panic",
    "Verif.LockTable.C60_progress",
    "Verif.LockTable.C60_no_leak",
    "Verif.LockTable.C60_race_violated",
    "Verif.LockTable.C60_race_partial",
    "Verif.LockTable.C60_race_only_partial"
   ],
   "note": "The full statement is false of the code: negation proved in C60_race_violated; the parts that hold are proved."
  },
  {
   "property": "C61",
   "status": "partial",
   "theorems": [
    "Verif.RpcTx.C61_roundtrip_partial",
    "Verif.RpcTx.C61_only_fits",
    "Verif.RpcTx.C61_position",
    "Verif.RpcTx.C61_indexed_partial",
    "Verif.RpcTx.C61_huge_tip_violated",
    "Verif.RpcTx.C61_block_violated",
    "Verif.RpcTx.C61_block_partial"
   ],
   "note": "The full statement is false of the code: negation proved in C61_huge_tip_violated, C61_block_violated; the parts that hold are proved."
  },
  {
   "property": "C62",
   "status": "partial",
   "theorems": [
    "Verif.Indexer.C62_exact",
    "Verif.Indexer.C62_partial",
    "Verif.Indexer.C62_violated"
   ],
   "note": "The full statement is false of the code: negation proved in C62_violated; the parts that hold are proved."
  },
  {
   "property": "C63",
   "status": "partial",
   "theorems": [
    "Verif.SendQueue.C63_low_nonce_partial",
    "Verif.SendQueue.C63_violated",
    "Verif.SendQueue.C63_replaced_violated",
    "Verif.SendQueue.C63_exact"
   ],
   "note": "The full statement is false of the code: negation proved in C63_violated, C63_replaced_violated; the parts that hold are proved."
  },
  {
   "property": "C64",
   "status": "partial",
   "theorems": [
    "Verif.TxPool.C64_exact",
    "Verif.TxPool.C64_announced_iff",
    "Verif.TxPool.C64_transparent",
    "Verif.TxPool.C64_unchecked_violated",
    "Verif.TxPool.C64_notified_partial",
    "Verif.TxPool.C64_notified_violated"
   ],
   "note": "The full statement is false of the code: negation proved in C64_unchecked_violated, C64_notified_violated; the parts that hold are proved."
  },
  {
   "property": "C65",
   "status": "partial",
   "theorems": [
    "Verif.TxPool.C65_content_partial",
    "Verif.TxPool.C65_content_from_partial",
    "Verif.TxPool.C65_pending_partial",
    "Verif.TxPool.C65_limit_violated",
    "Verif.TxPool.C65_limit_general_violated",
    "Verif.TxPool.C65_same_nonce_violated",
    "Verif.TxPool.C65_status_violated",
    "Verif.TxPool.C65_unconvertible_violated",
    "Verif.TxPool.C65_status_partial",
    "Verif.TxPool.C65_exact",
    "Verif.TxPool.C65_pending_exact"
   ],
   "note": "The full statement is false of the code: negation proved in C65_limit_violated, C65_limit_general_violated, C65_same_nonce_violated, C65_status_violated, C65_unconvertible_violated; the parts that hold are proved."
  },
  {
   "property": "C66",
   "status": "partial",
   "theorems": [
    "Verif.Props.BankGenesis.C66_import",
    "Verif.Props.BankGenesis.C66_settings",
    "Verif.Props.BankGenesis.C66_restart_violated",
    "Verif.Props.BankGenesis.C66_doubles_violated",
    "Verif.Props.BankGenesis.C66_balances_iff",
    "Verif.Props.BankGenesis.C66_import_violated",
    "Verif.Props.BankGenesis.C66_zero_violated"
   ],
   "note": "The full statement is false of the code: negation proved in C66_restart_violated, C66_doubles_violated, C66_import_violated, C66_zero_violated; the parts that hold are proved."
  },
  {
   "property": "C67",
   "status": "partial",
   "theorems": [
    "Verif.Props.BankGenesis.C67_iterate_partial",
    "Verif.Props.BankGenesis.C67_iterate_violated",
    "Verif.Props.BankGenesis.C67_balances_partial",
    "Verif.Props.BankGenesis.C67_balances_violated",
    "Verif.Props.BankGenesis.C67_metadata_partial",
    "Verif.Props.BankGenesis.C67_metadata_violated",
    "Verif.Props.BankGenesis.C67_send_enabled",
    "Verif.Props.BankGenesis.C67_iterate_exact",
    "Verif.Props.BankGenesis.C67_metadata_iff",
    "Verif.Props.BankGenesis.C67_balances_iff"
   ],
   "note": "The full statement is false of the code: negation proved in C67_iterate_violated, C67_balances_violated, C67_metadata_violated; the parts that hold are proved."
  },
  {
   "property": "C68",
   "status": "partial",
   "theorems": [
    "Verif.Props.Query.C68_call_partial",
    "Verif.Props.Query.C68_value_violated",
    "Verif.Props.Query.C68_zero_address_violated",
    "Verif.Props.Query.C68_negative_violated",
    "Verif.Props.Query.C68_grpc",
    "Verif.Props.Query.C68_exact",
    "Verif.Props.Query.C68_iff",
    "Verif.Props.Query.C68_cli"
   ],
   "note": "The full statement is false of the code: negation proved in C68_value_violated, C68_zero_address_violated, C68_negative_violated; the parts that hold are proved."
  },
  {
   "property": "C69",
   "status": "partial",
   "theorems": [
    "Verif.Props.Query.C69_request",
    "Verif.Props.Query.C69_partial",
    "Verif.Props.Query.C69_sequential_partial",
    "Verif.Props.Query.C69_residue_violated",
    "Verif.Props.Query.C69_race_violated",
    "Verif.Props.Query.C69_exact"
   ],
   "note": "The full statement is false of the code: negation proved in C69_residue_violated, C69_race_violated; the parts that hold are proved."
  },
  {
   "property": "C70",
   "status": "partial",
   "theorems": [
    "Verif.Props.Eth.C70_observe",
    "Verif.Props.Eth.C70_refines",
    "Verif.Props.Eth.C70_constructor_hash_violated",
    "Verif.Props.Eth.C70_codehash_partial",
    "Verif.Props.FeeToken.C70_fee_step",
    "Verif.Props.FeeToken.C70_fee_token",
    "Verif.Props.FeeToken.C70_fee_commit",
    "Verif.Props.FeeToken.C70_fee_supply"
   ],
   "note": "The full statement is false of the code: negation proved in C70_constructor_hash_violated; the parts that hold are proved."
  },
  {
   "property": "C71",
   "status": "proved",
   "theorems": [
    "Verif.Props.Eth.C71_fresh_storage"
   ],
   "note": ""
  },
  {
   "property": "C72",
   "status": "partial",
   "theorems": [
    "Verif.Props.Value.C72_exact_partial",
    "Verif.Props.Value.C72_zero",
    "Verif.Props.Value.C72_nofee",
    "Verif.Props.Value.C72_blocked_violated"
   ],
   "note": "The full statement is false of the code: negation proved in C72_blocked_violated; the parts that hold are proved."
  },
  {
   "property": "C73",
   "status": "partial",
   "theorems": [
    "Verif.Props.Value.C73_aborts_iff",
    "Verif.Props.Value.C73_pays_iff",
    "Verif.Props.Value.C73_destruct_partial",
    "Verif.Props.Value.C73_blocked_violated",
    "Verif.Props.Value.C73_custom_violated"
   ],
   "note": "The full statement is false of the code: negation proved in C73_blocked_violated, C73_custom_violated; the parts that hold are proved."
  },
  {
   "property": "C74",
   "status": "partial",
   "theorems": [
    "Verif.Props.Value.C74_affordable",
    "Verif.Props.Value.C74_partial",
    "Verif.Props.Value.C74_violated",
    "Verif.Props.Value.C74_iff"
   ],
   "note": "The full statement is false of the code: negation proved in C74_violated; the parts that hold are proved."
  },
  {
   "property": "C75",
   "status": "proved",
   "theorems": [
    "Verif.Props.Value.C75_spend",
    "Verif.Props.Value.C75_token",
    "Verif.Props.Value.C75_supply"
   ],
   "note": ""
  },
  {
   "property": "C76",
   "status": "partial",
   "theorems": [
    "Verif.GasPrice.C76_enough",
    "Verif.GasPrice.C76_quote_partial",
    "Verif.GasPrice.C76_exact",
    "Verif.GasPrice.C76_fraction_violated",
    "Verif.GasPrice.C76_other_denom_violated"
   ],
   "note": "The full statement is false of the code: negation proved in C76_fraction_violated, C76_other_denom_violated; the parts that hold are proved."
  },
  {
   "property": "C77",
   "status": "partial",
   "theorems": [
    "Verif.GasPrice.C77_partial",
    "Verif.GasPrice.C77_other_denom_violated",
    "Verif.GasPrice.C77_no_contract_violated"
   ],
   "note": "The full statement is false of the code: negation proved in C77_other_denom_violated, C77_no_contract_violated; the parts that hold are proved."
  },
  {
   "property": "C78",
   "status": "proved",
   "theorems": [
    "Verif.Messages.C78_logs",
    "Verif.Messages.C78_index",
    "Verif.Messages.C78_result",
    "Verif.Messages.C78_other"
   ],
   "note": ""
  },
  {
   "property": "C79",
   "status": "partial",
   "theorems": [
    "Verif.Messages.C79_access",
    "Verif.Messages.C79_access_shape",
    "Verif.Messages.C79_access_violated",
    "Verif.Messages.C79_call_partial",
    "Verif.Messages.C79_create_partial",
    "Verif.Messages.C79_create2_partial",
    "Verif.Messages.C79_kind",
    "Verif.Messages.C79_negative_violated",
    "Verif.Messages.C79_negative_all_violated",
    "Verif.Messages.C79_signed_partial"
   ],
   "note": "The full statement is false of the code: negation proved in C79_access_violated, C79_negative_violated, C79_negative_all_violated; the parts that hold are proved."
  },
  {
   "property": "C80",
   "status": "proved",
   "theorems": [
    "Verif.Keys.C80_persistent",
    "Verif.Keys.C80_transient",
    "Verif.Keys.C80_index",
    "Verif.Keys.C80_account",
    "Verif.Keys.C80_tokens",
    "Verif.Keys.C80_clear",
    "Verif.Keys.C80_destructed",
    "Verif.Keys.C80_logs",
    "Verif.Keys.C80_block",
    "Verif.Keys.C80_order",
    "Verif.Keys.C80_log_order",
    "Verif.Keys.C80_hash_order"
   ],
   "note": ""
  },
  {
   "property": "C81",
   "status": "partial",
   "theorems": [
    "Verif.Pipeline.C81_payer",
    "Verif.Pipeline.C81_rejected",
    "Verif.Pipeline.C81_included",
    "Verif.Pipeline.C81_failed",
    "Verif.Pipeline.C81_succeeded",
    "Verif.Pipeline.C81_pays",
    "Verif.Pipeline.C81_refund_paid",
    "Verif.Pipeline.C81_collected",
    "Verif.Pipeline.C81_once_partial",
    "Verif.Pipeline.C81_once_kept",
    "Verif.Pipeline.C81_violated_again",
    "Verif.Pipeline.C81_violated_back",
    "Verif.Pipeline.C81_violated_rewind"
   ],
   "note": "The full statement is false of the code: negation proved in C81_violated_again, C81_violated_back, C81_violated_rewind; the parts that hold are proved."
  },
  {
   "property": "C82",
   "status": "proved",
   "theorems": [
    "Verif.Props.Create.C82_taken",
    "Verif.Props.Create.C82_free",
    "Verif.Props.Create.C82_blank",
    "Verif.Props.Create.C82_records",
    "Verif.Props.Create.C82_once",
    "Verif.Props.Create.C82_failed",
    "Verif.Props.Create.C82_blank_code",
    "Verif.Props.Create.C82_next",
    "Verif.Props.Create.C82_announced",
    "Verif.Props.Create.C82_wallet",
    "Verif.Props.Create.C82_warm"
   ],
   "note": ""
  },
  {
   "property": "C83",
   "status": "partial",
   "theorems": [
    "Verif.WrapMsg.C83_json",
    "Verif.Props.WrapMsg.C83_decimal",
    "Verif.Props.WrapMsg.C83_hex",
    "Verif.Props.WrapMsg.C83_hex_fits",
    "Verif.Props.WrapMsg.C83_request_partial",
    "Verif.Props.WrapMsg.C83_honest_violated",
    "Verif.Props.WrapMsg.C83_injection_violated",
    "Verif.Props.WrapMsg.C83_sender",
    "Verif.Props.WrapMsg.C83_case",
    "Verif.WrapMsg.C83_message",
    "Verif.WrapMsg.C83_message_unique"
   ],
   "note": "The full statement is false of the code: negation proved in C83_honest_violated, C83_injection_violated; the parts that hold are proved."
  },
  {
   "property": "C84",
   "status": "partial",
   "theorems": [
    "Verif.Props.AnteSigs.C84_chain",
    "Verif.Props.AnteSigs.C84_covered",
    "Verif.Props.AnteSigs.C84_free_violated",
    "Verif.Props.SigGas.C84_bits",
    "Verif.Props.SigGas.C84_paid",
    "Verif.Props.SigGas.C84_types",
    "Verif.Props.SigGas.C84_hook_partial",
    "Verif.Props.SigGas.C84_limit",
    "Verif.Props.SigGas.C84_underpaid",
    "Verif.Props.SigGas.C84_wallet",
    "Verif.Props.SigGas.C84_hook_violated",
    "Verif.Props.SigGas.C84_threshold",
    "Verif.Props.SigGas.C84_member",
    "Verif.Props.SigGas.C84_spare",
    "Verif.Props.SigGas.C84_plain"
   ],
   "note": "The full statement is false of the code: negation proved in C84_free_violated, C84_hook_violated; the parts that hold are proved."
  },
  {
   "property": "C85",
   "status": "partial",
   "theorems": [
    "Verif.Props.FeeDenom.C85_test_partial",
    "Verif.Props.FeeDenom.C85_works_partial",
    "Verif.Props.FeeDenom.C85_refuses",
    "Verif.Props.FeeDenom.C85_zero_violated",
    "Verif.Props.FeeDenom.C85_case"
   ],
   "note": "The full statement is false of the code: negation proved in C85_zero_violated; the parts that hold are proved."
  },
  {
   "property": "C86",
   "status": "partial",
   "theorems": [
    "Verif.WrapMsg.C86_json",
    "Verif.WrapMsg.C86_json_unique",
    "Verif.Memo.C86_callback_partial",
    "Verif.Memo.C86_timeout_partial",
    "Verif.Memo.C86_odd_id_violated",
    "Verif.Memo.C86_large_id_violated",
    "Verif.Memo.C86_documented_violated",
    "Verif.Memo.C86_never_plain",
    "Verif.Memo.C86_directed_violated",
    "Verif.Memo.C86_access_list_violated",
    "Verif.Memo.C86_message",
    "Verif.Memo.C86_wrong_id_violated",
    "Verif.Memo.C86_message_case",
    "Verif.Memo.C86_id_exact",
    "Verif.Memo.C86_id_iff",
    "Verif.Memo.C86_confused",
    "Verif.Memo.C86_accepts",
    "Verif.Memo.C86_decodes",
    "Verif.Memo.C86_canonical"
   ],
   "note": "The full statement is false of the code: negation proved in C86_odd_id_violated, C86_large_id_violated, C86_documented_violated, C86_directed_violated, C86_access_list_violated, C86_wrong_id_violated; the parts that hold are proved."
  },
  {
   "property": "C87",
   "status": "partial",
   "theorems": [
    "Verif.Nested.C87_ends_partial",
    "Verif.Nested.C87_crash",
    "Verif.Nested.C87_result",
    "Verif.Nested.C87_simulation_violated"
   ],
   "note": "The full statement is false of the code: negation proved in C87_simulation_violated; the parts that hold are proved."
  },
  {
   "property": "C88",
   "status": "partial",
   "theorems": [
    "Verif.Listing.C88_exact",
    "Verif.Listing.C88_listed",
    "Verif.Listing.C88_blocked_violated",
    "Verif.Listing.C88_enters",
    "Verif.Listing.C88_case"
   ],
   "note": "The full statement is false of the code: negation proved in C88_blocked_violated; the parts that hold are proved."
  },
  {
   "property": "C89",
   "status": "partial",
   "theorems": [
    "Verif.Props.ModuleAcct.C89_kept",
    "Verif.Props.ModuleAcct.C89_works",
    "Verif.Props.ModuleAcct.C89_lost",
    "Verif.Props.ModuleAcct.C89_registry_violated",
    "Verif.Props.ModuleAcct.C89_send_violated",
    "Verif.Props.ModuleAcct.C89_refines",
    "Verif.Props.RefusalExact.C89_out_exact",
    "Verif.Props.RefusalExact.C89_mint_exact",
    "Verif.Props.RefusalExact.C89_burn_exact"
   ],
   "note": "The full statement is false of the code: negation proved in C89_registry_violated, C89_send_violated; the parts that hold are proved."
  },
  {
   "property": "C90",
   "status": "partial",
   "theorems": [
    "Verif.Props.Export.C90_entries",
    "Verif.Props.Export.C90_total_partial",
    "Verif.Props.Export.C90_holders",
    "Verif.Props.Export.C90_panic_violated",
    "Verif.Props.Export.C90_twice_violated",
    "Verif.Props.Export.C90_destroyed_violated",
    "Verif.Props.Export.C90_panics_iff"
   ],
   "note": "The full statement is false of the code: negation proved in C90_panic_violated, C90_twice_violated, C90_destroyed_violated; the parts that hold are proved."
  },
  {
   "property": "C91",
   "status": "partial",
   "theorems": [
    "Verif.Estimate.C91_estimate",
    "Verif.Estimate.C91_succeeds",
    "Verif.Estimate.C91_enough_partial",
    "Verif.Estimate.C91_iff",
    "Verif.Estimate.C91_refund_violated",
    "Verif.Estimate.C91_list_violated",
    "Verif.Estimate.C91_large_violated",
    "Verif.Props.EstimateMsg.C91_message"
   ],
   "note": "The full statement is false of the code: negation proved in C91_refund_violated, C91_list_violated, C91_large_violated; the parts that hold are proved."
  },
  {
   "property": "C92",
   "status": "partial",
   "theorems": [
    "Verif.Halt.C92_accepted",
    "Verif.Halt.C92_runs_partial",
    "Verif.Halt.C92_panic_violated",
    "Verif.Halt.C92_error_violated",
    "Verif.Halt.C92_panics_iff",
    "Verif.Halt.C92_block_iff",
    "Verif.Halt.C92_exact"
   ],
   "note": "The full statement is false of the code: negation proved in C92_panic_violated, C92_error_violated; the parts that hold are proved."
  },
  {
   "property": "C93",
   "status": "partial",
   "theorems": [
    "Verif.Cost.C93_paid",
    "Verif.Cost.C93_receipt_partial",
    "Verif.Cost.C93_beyond",
    "Verif.Cost.C93_unused_violated",
    "Verif.Cost.C93_failed_violated",
    "Verif.Cost.C93_rejected_violated",
    "Verif.Cost.C93_overrun_violated",
    "Verif.Cost.C93_cumulative",
    "Verif.Cost.C93_header",
    "Verif.Cost.C93_header_partial",
    "Verif.Cost.C93_header_violated"
   ],
   "note": "The full statement is false of the code: negation proved in C93_unused_violated, C93_failed_violated, C93_rejected_violated, C93_overrun_violated, C93_header_violated; the parts that hold are proved."
  },
  {
   "property": "C94",
   "status": "partial",
   "theorems": [
    "Verif.Answers.C94_address_back",
    "Verif.Answers.C94_text_back",
    "Verif.Answers.C94_long_violated",
    "Verif.Answers.C94_message_identity",
    "Verif.Answers.C94_self_partial",
    "Verif.Answers.C94_self_violated",
    "Verif.Answers.C94_blocked",
    "Verif.Answers.C94_module_partial",
    "Verif.Answers.C94_longer",
    "Verif.Answers.C94_module_violated",
    "Verif.Answers.C94_denom_back",
    "Verif.Answers.C94_erc20_violated",
    "Verif.Answers.C94_store_partial",
    "Verif.Answers.C94_store_violated"
   ],
   "note": "The full statement is false of the code: negation proved in C94_long_violated, C94_self_violated, C94_module_violated, C94_erc20_violated, C94_store_violated; the parts that hold are proved."
  },
  {
   "property": "C95",
   "status": "partial",
   "theorems": [
    "Verif.Paging.C95_balances",
    "Verif.Paging.C95_supplies",
    "Verif.Paging.C95_page",
    "Verif.Paging.C95_supply_page",
    "Verif.Paging.C95_whole",
    "Verif.Paging.C95_ends",
    "Verif.Paging.C95_order_violated",
    "Verif.Paging.C95_zero_violated",
    "Verif.Paging.C95_supply_violated",
    "Verif.Paging.C95_offset_violated",
    "Verif.Paging.C95_total"
   ],
   "note": "The full statement is false of the code: negation proved in C95_order_violated, C95_zero_violated, C95_supply_violated, C95_offset_violated; the parts that hold are proved."
  },
  {
   "property": "C96",
   "status": "partial",
   "theorems": [
    "Verif.TokenMeta.C96_base",
    "Verif.TokenMeta.C96_valid_partial",
    "Verif.TokenMeta.C96_valid_violated",
    "Verif.TokenMeta.C96_scale_partial",
    "Verif.TokenMeta.C96_decimals_violated",
    "Verif.TokenMeta.C96_display_violated",
    "Verif.TokenMeta.C96_display_partial",
    "Verif.TokenMeta.C96_scale_iff",
    "Verif.TokenMeta.C96_valid_iff"
   ],
   "note": "The full statement is false of the code: negation proved in C96_valid_violated, C96_decimals_violated, C96_display_violated; the parts that hold are proved."
  },
  {
   "property": "C97",
   "status": "proved",
   "theorems": [
    "Verif.Props.Books.C97_sums",
    "Verif.Props.Books.C97_issued",
    "Verif.Props.Books.C97_exact",
    "Verif.Props.Books.C97_holder"
   ],
   "note": ""
  },
  {
   "property": "C98",
   "status": "proved",
   "theorems": [
    "Verif.Props.Safe.C98_loss",
    "Verif.Props.Safe.C98_safe",
    "Verif.Props.Safe.C98_denom",
    "Verif.Props.Safe.C98_approved",
    "Verif.Props.Safe.C98_needs_use",
    "Verif.Props.Safe.C98_needs_approval"
   ],
   "note": ""
  },
  {
   "property": "C99",
   "status": "proved",
   "theorems": [
    "Verif.Props.LogStream.C99_answer",
    "Verif.Props.LogStream.C99_cancelled",
    "Verif.Props.LogStream.C99_progress",
    "Verif.Props.LogStream.C99_ends",
    "Verif.Props.LogStream.C99_getLogs"
   ],
   "note": ""
  },
  {
   "property": "C100",
   "status": "proved",
   "theorems": [
    "Verif.Props.Charges.C100_bill",
    "Verif.Props.Charges.C100_idle",
    "Verif.Props.Charges.C100_failed",
    "Verif.Props.Charges.C100_used_up",
    "Verif.Props.Charges.C100_cosmos",
    "Verif.Props.Charges.C100_cost",
    "Verif.Props.Charges.C100_refund",
    "Verif.Props.Charges.C100_no_inflation"
   ],
   "note": ""
  },
  {
   "property": "C101",
   "status": "partial",
   "theorems": [
    "Verif.Rollback.C101_rollback",
    "Verif.Rollback.C101_partial",
    "Verif.Rollback.C101_exact",
    "Verif.Rollback.C101_executed",
    "Verif.Rollback.C101_violated",
    "Verif.Rollback.C101_dropped_violated",
    "Verif.Rollback.C101_ahead_violated",
    "Verif.Rollback.C101_hash_violated"
   ],
   "note": "The full statement is false of the code: negation proved in C101_violated, C101_dropped_violated, C101_ahead_violated, C101_hash_violated; the parts that hold are proved."
  },
  {
   "property": "C102",
   "status": "partial",
   "theorems": [
    "Verif.ReadText.C102_storage",
    "Verif.ReadText.C102_storage_refused",
    "Verif.ReadText.C102_code",
    "Verif.ReadText.C102_state_partial",
    "Verif.ReadText.C102_state_violated",
    "Verif.ReadText.C102_version",
    "Verif.ReadText.C102_version_default",
    "Verif.ReadText.C102_version_violated",
    "Verif.ReadText.C102_state_exact"
   ],
   "note": "The full statement is false of the code: negation proved in C102_state_violated, C102_version_violated; the parts that hold are proved."
  },
  {
   "property": "C103",
   "status": "partial",
   "theorems": [
    "Verif.Upgrade.C103_argument",
    "Verif.Upgrade.C103_scope",
    "Verif.Upgrade.C103_valid",
    "Verif.Upgrade.C103_hashes",
    "Verif.Upgrade.C103_factory",
    "Verif.Upgrade.C103_factory_address",
    "Verif.Upgrade.C103_again_violated",
    "Verif.Upgrade.C103_genesis_violated",
    "Verif.Upgrade.C103_succeeds"
   ],
   "note": "The full statement is false of the code: negation proved in C103_again_violated, C103_genesis_violated; the parts that hold are proved."
  },
  {
   "property": "C104",
   "status": "partial",
   "theorems": [
    "Verif.Endpoints.C104_each",
    "Verif.Endpoints.C104_order",
    "Verif.Endpoints.C104_gap_violated",
    "Verif.Endpoints.C104_view_violated",
    "Verif.Endpoints.C104_lock_violated",
    "Verif.Endpoints.C104_filter_violated"
   ],
   "note": "The full statement is false of the code: negation proved in C104_gap_violated, C104_view_violated, C104_lock_violated, C104_filter_violated; the parts that hold are proved."
  },
  {
   "property": "C105",
   "status": "partial",
   "theorems": [
    "Verif.BlockEnv.C105_block",
    "Verif.BlockEnv.C105_merge",
    "Verif.BlockEnv.C105_time",
    "Verif.BlockEnv.C105_random",
    "Verif.BlockEnv.C105_random_call",
    "Verif.BlockEnv.C105_mix_violated",
    "Verif.BlockEnv.C105_hash_violated",
    "Verif.BlockEnv.C105_gas_limit_violated",
    "Verif.BlockEnv.C105_base_fee_partial",
    "Verif.BlockEnv.C105_base_fee_violated",
    "Verif.BlockEnv.C105_gas_used",
    "Verif.BlockEnv.C105_origin",
    "Verif.BlockEnv.C105_origin_violated"
   ],
   "note": "The full statement is false of the code: negation proved in C105_mix_violated, C105_hash_violated, C105_gas_limit_violated, C105_base_fee_violated, C105_origin_violated; the parts that hold are proved."
  },
  {
   "property": "C106",
   "status": "proved",
   "theorems": [
    "Verif.Props.NftHooks.C106_nothing_gained",
    "Verif.Props.NftHooks.C106_balances",
    "Verif.Props.NftHooks.C106_stays",
    "Verif.Props.NftHooks.C106_minted"
   ],
   "note": ""
  },
  {
   "property": "C107",
   "status": "partial",
   "theorems": [
    "Verif.Props.NftHooks.C107_early_violated",
    "Verif.Props.NftHooks.C107_ghost_violated",
    "Verif.Props.NftHooks.C106_minted"
   ],
   "note": "The full statement is false of the code: negation proved in C107_early_violated, C107_ghost_violated; the parts that hold are proved."
  },
  {
   "property": "C108",
   "status": "proved",
   "theorems": [
    "Verif.Props.Nft.C48_balances",
    "Verif.Props.Nft.C48_authority",
    "Verif.Props.Nft.C48_permissions",
    "Verif.Props.Nft.C48_query"
   ],
   "note": "The clauses of C48 that hold without exception; what does not hold is recorded there."
  },
  {
   "property": "C109",
   "status": "proved",
   "theorems": [
    "Verif.Props.Nft.C48_transfers",
    "Verif.Props.Nft.C48_transfers_ok",
    "Verif.Props.Nft.C48_burns",
    "Verif.Props.Nft.C48_burns_ok",
    "Verif.Props.Nft.C48_mints",
    "Verif.Props.Nft.C48_mints_ok"
   ],
   "note": "The clauses of C48 that hold without exception; what does not hold is recorded there."
  },
  {
   "property": "C110",
   "status": "proved",
   "theorems": [
    "Verif.Props.Nft.C48_classes",
    "Verif.Props.Nft.C48_class_stable",
    "Verif.Props.Nft.C48_class_create"
   ],
   "note": "The clauses of C48 that hold without exception; what does not hold is recorded there."
  },
  {
   "property": "C111",
   "status": "proved",
   "theorems": [
    "Verif.Props.Exec.C13_authorized",
    "Verif.Props.Exec.C13_static",
    "Verif.Props.Exec.C13_all_or_nothing"
   ],
   "note": "The clauses of C13 that hold without exception; what does not hold is recorded there."
  },
  {
   "property": "C112",
   "status": "proved",
   "theorems": [
    "Verif.Props.World.C10_create",
    "Verif.Props.World.C10_numbers_unique"
   ],
   "note": "The clauses of C10 that hold without exception; what does not hold is recorded there."
  },
  {
   "property": "C113",
   "status": "proved",
   "theorems": [
    "Verif.Props.Identity.C30_short",
    "Verif.Props.Identity.C30_stable",
    "Verif.Props.Identity.C30_rejects",
    "Verif.Props.Identity.C30_used",
    "Verif.Props.Identity.C30_frame"
   ],
   "note": "The clauses of C30 that hold without exception; what does not hold is recorded there."
  },
  {
   "property": "C114",
   "status": "proved",
   "theorems": [
    "Verif.IndexStore.C37_reads",
    "Verif.IndexStore.C37_has",
    "Verif.IndexStore.C37_flush",
    "Verif.IndexStore.C37_delete_iff"
   ],
   "note": "The clauses of C37 that hold without exception; what does not hold is recorded there."
  },
  {
   "property": "C115",
   "status": "proved",
   "theorems": [
    "Verif.Indexer.C39_receipt",
    "Verif.Indexer.C39_unique",
    "Verif.LogFilter.C40_bloom",
    "Verif.LogFilter.C40_filter_logs"
   ],
   "note": "The clauses of C39 and C40 that hold without exception; what does not hold is recorded there."
  },
  {
   "property": "C116",
   "status": "proved",
   "theorems": [
    "Verif.SendQueue.C41_consecutive",
    "Verif.SendQueue.C41_once",
    "Verif.SendQueue.C41_in_order",
    "Verif.SendQueue.C41_stale",
    "Verif.SendQueue.C41_drained"
   ],
   "note": "The clauses of C41 that hold without exception; what does not hold is recorded there."
  },
  {
   "property": "C117",
   "status": "proved",
   "theorems": [
    "Verif.Filters.C42_delivery",
    "Verif.Filters.C42_poll",
    "Verif.Filters.C42_uninstalled",
    "Verif.Filters.C42_no_deadlock",
    "Verif.Filters.C42_once"
   ],
   "note": "The clauses of C42 that hold without exception; what does not hold is recorded there."
  },
  {
   "property": "C118",
   "status": "proved",
   "theorems": [
    "Verif.FeeHistory.C43_each_block_once",
    "Verif.FeeHistory.C43_not_stuck",
    "Verif.FeeHistory.C43_terminates",
    "Verif.FeeHistory.C43_answer",
    "Verif.FeeHistory.C43_next_base_fee",
    "Verif.FeeHistory.C43_rewards_monotone",
    "Verif.FeeHistory.C43_rewards",
    "Verif.FeeHistory.C43_empty_block",
    "Verif.FeeHistory.C43_no_panic",
    "Verif.FeeHistory.C43_rejects",
    "Verif.FeeHistory.C43_range"
   ],
   "note": "The clauses of C43 that hold without exception; what does not hold is recorded there."
  },
  {
   "property": "C119",
   "status": "proved",
   "theorems": [
    "Verif.Props.Bank.C44_restrictions",
    "Verif.Props.Bank.C44_modules",
    "Verif.Props.Bank.C44_delegate",
    "Verif.Props.Bank.C44_mint",
    "Verif.Props.Bank.C44_burn",
    "Verif.Props.Bank.C44_switches",
    "Verif.Props.Bank.C44_admin",
    "Verif.Props.Bank.C44_send_accepts",
    "Verif.Props.ModuleBank.C44_modules_accounts",
    "Verif.Props.ModuleBank.C44_supply_accounts",
    "Verif.Props.Bank.C44_accounts"
   ],
   "note": "The clauses of C44 that hold without exception; what does not hold is recorded there."
  },
  {
   "property": "C120",
   "status": "proved",
   "theorems": [
    "Verif.Props.Wrapper.C49_redeem",
    "Verif.Props.Wrapper.C49_wrap",
    "Verif.Props.Wrapper.C49_dust"
   ],
   "note": "The clauses of C49 that hold without exception; what does not hold is recorded there."
  },
  {
   "property": "C121",
   "status": "proved",
   "theorems": [
    "Verif.BlockTag.C51_blocks",
    "Verif.BlockTag.C51_by_hash",
    "Verif.BlockTag.C51_by_hash_moving",
    "Verif.BlockTag.C51_past_number",
    "Verif.BlockTag.C51_default",
    "Verif.BlockTag.C51_neither"
   ],
   "note": "The clauses of C51 that hold without exception; what does not hold is recorded there."
  },
  {
   "property": "C122",
   "status": "proved",
   "theorems": [
    "Verif.Props.TxUtils.C52_hex",
    "Verif.Props.TxUtils.C52_roundtrip",
    "Verif.Messages.C79_access",
    "Verif.Messages.C79_access_shape",
    "Verif.ReadText.C102_storage",
    "Verif.ReadText.C102_storage_refused"
   ],
   "note": "The clauses of C52 and C79 and C102 that hold without exception; what does not hold is recorded there."
  },
  {
   "property": "C123",
   "status": "proved",
   "theorems": [
    "Verif.Text.C58_amount_texts",
    "Verif.Text.C58_signed_texts",
    "Verif.Hooks.C58_amount",
    "Verif.Props.WrapMsg.C83_decimal",
    "Verif.Props.WrapMsg.C83_hex",
    "Verif.Props.WrapMsg.C83_hex_fits"
   ],
   "note": "The clauses of C58 and C83 that hold without exception; what does not hold is recorded there."
  },
  {
   "property": "C124",
   "status": "proved",
   "theorems": [
    "Verif.LockTable.C60_mutual_exclusion",
    "Verif.LockTable.C60_no_panic",
    "Verif.LockTable.C60_progress",
    "Verif.LockTable.C60_no_leak"
   ],
   "note": "The clauses of C60 that hold without exception; what does not hold is recorded there."
  },
  {
   "property": "C125",
   "status": "proved",
   "theorems": [
    "Verif.WrapMsg.C83_json",
    "Verif.WrapMsg.C83_message",
    "Verif.WrapMsg.C83_message_unique",
    "Verif.WrapMsg.C86_json",
    "Verif.WrapMsg.C86_json_unique",
    "Verif.Memo.C86_accepts",
    "Verif.Memo.C86_decodes",
    "Verif.Memo.C86_canonical"
   ],
   "note": "The clauses of C83 and C86 that hold without exception; what does not hold is recorded there."
  },
  {
   "property": "C126",
   "status": "proved",
   "theorems": [
    "Verif.Pipeline.C81_payer",
    "Verif.Pipeline.C81_rejected",
    "Verif.Pipeline.C81_included",
    "Verif.Pipeline.C81_failed",
    "Verif.Pipeline.C81_succeeded",
    "Verif.Pipeline.C81_pays",
    "Verif.Pipeline.C81_refund_paid",
    "Verif.Pipeline.C81_collected"
   ],
   "note": "The clauses of C81 that hold without exception; what does not hold is recorded there."
  },
  {
   "property": "C127",
   "status": "proved",
   "theorems": [
    "Verif.Props.SigGas.C84_paid",
    "Verif.Props.SigGas.C84_types",
    "Verif.Props.SigGas.C84_limit",
    "Verif.Props.SigGas.C84_underpaid",
    "Verif.Props.SigGas.C84_wallet",
    "Verif.Props.AnteSigs.C84_chain",
    "Verif.Props.AnteSigs.C84_covered",
    "Verif.Props.SigGas.C84_threshold",
    "Verif.Props.SigGas.C84_member"
   ],
   "note": "The clauses of C84 that hold without exception; what does not hold is recorded there."
  },
  {
   "property": "C128",
   "status": "proved",
   "theorems": [
    "Verif.Memo.C86_never_plain",
    "Verif.Memo.C86_message"
   ],
   "note": "The clauses of C86 that hold without exception; what does not hold is recorded there."
  },
  {
   "property": "C129",
   "status": "proved",
   "theorems": [
    "Verif.Listing.C88_exact",
    "Verif.Listing.C88_listed"
   ],
   "note": "The clauses of C88 that hold without exception; what does not hold is recorded there."
  },
  {
   "property": "C130",
   "status": "proved",
   "theorems": [
    "Verif.Props.ModuleAcct.C89_kept",
    "Verif.Props.ModuleAcct.C89_works",
    "Verif.Props.ModuleAcct.C89_lost"
   ],
   "note": "The clauses of C89 that hold without exception; what does not hold is recorded there."
  },
  {
   "property": "C131",
   "status": "proved",
   "theorems": [
    "Verif.Props.Export.C90_entries",
    "Verif.Props.Export.C90_holders"
   ],
   "note": "The clauses of C90 that hold without exception; what does not hold is recorded there."
  },
  {
   "property": "C132",
   "status": "proved",
   "theorems": [
    "Verif.Paging.C95_balances",
    "Verif.Paging.C95_supplies",
    "Verif.Paging.C95_page",
    "Verif.Paging.C95_whole",
    "Verif.Paging.C95_ends",
    "Verif.Paging.C95_total"
   ],
   "note": "The clauses of C95 that hold without exception; what does not hold is recorded there."
  },
  {
   "property": "C133",
   "status": "proved",
   "theorems": [
    "Verif.Rollback.C101_rollback",
    "Verif.Rollback.C101_exact",
    "Verif.Rollback.C101_executed"
   ],
   "note": "The clauses of C101 that hold without exception; what does not hold is recorded there."
  },
  {
   "property": "C134",
   "status": "proved",
   "theorems": [
    "Verif.Upgrade.C103_scope",
    "Verif.Upgrade.C103_valid",
    "Verif.Upgrade.C103_hashes",
    "Verif.Upgrade.C103_factory",
    "Verif.Upgrade.C103_succeeds"
   ],
   "note": "The clauses of C103 that hold without exception; what does not hold is recorded there."
  },
  {
   "property": "C135",
   "status": "proved",
   "theorems": [
    "Verif.BlockEnv.C105_block",
    "Verif.BlockEnv.C105_time",
    "Verif.BlockEnv.C105_random",
    "Verif.BlockEnv.C105_random_call",
    "Verif.BlockEnv.C105_origin"
   ],
   "note": "The clauses of C105 that hold without exception; what does not hold is recorded there."
  },
  {
   "property": "C136",
   "status": "proved",
   "theorems": [
    "Verif.Endpoints.C104_each",
    "Verif.Endpoints.C104_order"
   ],
   "note": "The clauses of C104 that hold without exception; what does not hold is recorded there."
  },
  {
   "property": "C137",
   "status": "proved",
   "theorems": [
    "Verif.Estimate.C91_estimate",
    "Verif.Estimate.C91_succeeds",
    "Verif.Props.EstimateMsg.C91_message",
    "Verif.Estimate.C91_iff"
   ],
   "note": "The clauses of C91 that hold without exception; what does not hold is recorded there."
  },
  {
   "property": "C138",
   "status": "proved",
   "theorems": [
    "Verif.Cost.C93_paid",
    "Verif.Cost.C93_cumulative",
    "Verif.Cost.C93_header",
    "Verif.Cost.C93_beyond"
   ],
   "note": "The clauses of C93 that hold without exception; what does not hold is recorded there."
  },
  {
   "property": "C139",
   "status": "proved",
   "theorems": [
    "Verif.Answers.C94_address_back",
    "Verif.Answers.C94_text_back",
    "Verif.Answers.C94_message_identity",
    "Verif.Answers.C94_blocked",
    "Verif.Answers.C94_denom_back"
   ],
   "note": "The clauses of C94 that hold without exception; what does not hold is recorded there."
  },
  {
   "property": "C140",
   "status": "proved",
   "theorems": [
    "Verif.Props.BankGenesis.C66_import",
    "Verif.Props.BankGenesis.C66_settings",
    "Verif.Props.BankGenesis.C67_send_enabled"
   ],
   "note": "The clauses of C66 and C67 that hold without exception; what does not hold is recorded there."
  },
  {
   "property": "C141",
   "status": "proved",
   "theorems": [
    "Verif.GasPrice.C76_enough",
    "Verif.GasPrice.C76_exact",
    "Verif.Props.Value.C74_affordable"
   ],
   "note": "The clauses of C76 and C74 that hold without exception; what does not hold is recorded there."
  },
  {
   "property": "C142",
   "status": "proved",
   "theorems": [
    "Verif.ReadText.C102_code",
    "Verif.ReadText.C102_version",
    "Verif.ReadText.C102_version_default",
    "Verif.TokenMeta.C96_base"
   ],
   "note": "The clauses of C102 and C96 that hold without exception; what does not hold is recorded there."
  },
  {
   "property": "C143",
   "status": "partial",
   "theorems": [
    "Verif.Props.BankQuery.C143_supply_violated",
    "Verif.Props.BankQuery.C143_balance_violated",
    "Verif.Props.BankQuery.C143_spelling_violated",
    "Verif.Props.BankQuery.C143_has_violated",
    "Verif.Props.BankQuery.C143_balance_panics_iff",
    "Verif.Props.BankQuery.C143_supply_panics_iff"
   ],
   "note": "The full statement is false of the code: negation proved in C143_supply_violated, C143_balance_violated, C143_spelling_violated, C143_has_violated; the parts that hold are proved."
  },
  {
   "property": "C144",
   "status": "proved",
   "theorems": [
    "Verif.Props.BankQuery.C144_token",
    "Verif.Props.BankQuery.C144_unused",
    "Verif.Props.BankQuery.C144_sound",
    "Verif.Props.BankQuery.C144_listing",
    "Verif.Props.BankQuery.C144_sum",
    "Verif.Props.BankQuery.C144_spend",
    "Verif.Props.BankQuery.C144_has",
    "Verif.Props.BankQuery.C144_no_supply",
    "Verif.Props.BankQuery.C144_refused"
   ],
   "note": ""
  },
  {
   "property": "C145",
   "status": "partial",
   "theorems": [
    "Verif.Props.RevertText.C145_lost_violated",
    "Verif.Props.RevertText.C145_told_iff",
    "Verif.Props.RevertText.C145_data_partial",
    "Verif.Props.RevertText.C145_distinct",
    "Verif.Props.RevertText.C145_only",
    "Verif.Props.RevertText.C145_success",
    "Verif.Props.RevertText.C145_out_of_gas",
    "Verif.Props.RevertText.C145_zero_gas_violated",
    "Verif.Props.RevertText.C145_zero_gas",
    "Verif.Props.RevertText.C145_static_violated",
    "Verif.Props.RevertText.C145_rpc_violated",
    "Verif.Props.RevertText.C145_rpc_code",
    "Verif.Props.RevertText.C145_rpc_message_partial"
   ],
   "note": "The full statement is false of the code: negation proved in C145_lost_violated, C145_zero_gas_violated, C145_static_violated, C145_rpc_violated; the parts that hold are proved."
  },
  {
   "property": "C146",
   "status": "partial",
   "theorems": [
    "Verif.Props.Oracle.C146_paths",
    "Verif.Props.Oracle.C146_serial_partial",
    "Verif.Props.Oracle.C146_own_objects",
    "Verif.Props.Oracle.C146_whitelist",
    "Verif.Props.Oracle.C146_answer_violated",
    "Verif.Props.Oracle.C146_twin_violated"
   ],
   "note": "The full statement is false of the code: negation proved in C146_answer_violated, C146_twin_violated; the parts that hold are proved."
  },
  {
   "property": "C147",
   "status": "proved",
   "theorems": [
    "Verif.Props.RevertText.C145_success",
    "Verif.Props.RevertText.C145_only",
    "Verif.Props.RevertText.C145_distinct"
   ],
   "note": "The clauses of C145 that hold without exception; what does not hold is recorded there."
  },
  {
   "property": "C148",
   "status": "proved",
   "theorems": [
    "Verif.Props.Oracle.C146_whitelist",
    "Verif.Props.Oracle.C146_paths",
    "Verif.Props.Oracle.C146_own_objects"
   ],
   "note": "The clauses of C146 that hold without exception; what does not hold is recorded there."
  },
  {
   "property": "C149",
   "status": "proved",
   "theorems": [
    "Verif.Props.Translate.C149_translate",
    "Verif.Props.Translate.C149_found",
    "Verif.Props.Translate.C149_unknown"
   ],
   "note": ""
  },
  {
   "property": "C150",
   "status": "partial",
   "theorems": [
    "Verif.Props.Cli.C150_create_partial",
    "Verif.Props.Cli.C150_create2_partial",
    "Verif.Props.Cli.C150_call_partial",
    "Verif.Props.Cli.C150_plain",
    "Verif.Props.Cli.C150_negative_violated",
    "Verif.Props.Cli.C150_file_violated",
    "Verif.Props.Cli.C150_help_violated"
   ],
   "note": "The full statement is false of the code: negation proved in C150_negative_violated, C150_file_violated, C150_help_violated; the parts that hold are proved."
  },
  {
   "property": "C151",
   "status": "partial",
   "theorems": [
    "Verif.Props.Routes.C151_listed_partial",
    "Verif.Props.Routes.C151_wrapped_violated",
    "Verif.Props.Routes.C151_evm_violated",
    "Verif.Props.Routes.C151_dead_violated",
    "Verif.Props.Routes.C151_exact_partial",
    "Verif.Props.Routes.C151_runs"
   ],
   "note": "The full statement is false of the code: negation proved in C151_wrapped_violated, C151_evm_violated, C151_dead_violated; the parts that hold are proved."
  },
  {
   "property": "C152",
   "status": "partial",
   "theorems": [
    "Verif.Props.Routes.C152_violated",
    "Verif.Props.Routes.C152_limited"
   ],
   "note": "The full statement is false of the code: negation proved in C152_violated; the parts that hold are proved."
  },
  {
   "property": "C153",
   "status": "proved",
   "theorems": [
    "Verif.Props.Routes.C153_pairs",
    "Verif.Props.Routes.C153_once_iff",
    "Verif.Props.Routes.C153_denom"
   ],
   "note": ""
  },
  {
   "property": "C154",
   "status": "partial",
   "theorems": [
    "Verif.Props.Routes.C154_launch_partial",
    "Verif.Props.Routes.C154_launch_violated",
    "Verif.Props.Routes.C154_clients_partial",
    "Verif.Props.Routes.C154_clients_violated",
    "Verif.Props.Routes.C154_localhost_iff"
   ],
   "note": "The full statement is false of the code: negation proved in C154_launch_violated, C154_clients_violated; the parts that hold are proved."
  },
  {
   "property": "C155",
   "status": "proved",
   "theorems": [
    "Verif.Props.NodeConfig.C155_inspect",
    "Verif.Props.NodeConfig.C155_syncing"
   ],
   "note": ""
  },
  {
   "property": "C156",
   "status": "partial",
   "theorems": [
    "Verif.Props.NodeConfig.C156_written",
    "Verif.Props.NodeConfig.C156_served_partial",
    "Verif.Props.NodeConfig.C156_missing_violated",
    "Verif.Props.NodeConfig.C156_default_violated",
    "Verif.Props.NodeConfig.C156_list_violated",
    "Verif.Props.NodeConfig.C156_text_violated",
    "Verif.Props.NodeConfig.C156_switch",
    "Verif.Props.NodeConfig.C156_evm",
    "Verif.Props.NodeConfig.C156_limits",
    "Verif.Props.NodeConfig.C156_mistyped_violated",
    "Verif.Props.NodeConfig.C156_switch_number_violated",
    "Verif.Props.NodeConfig.C156_mistyped_switch_violated",
    "Verif.Props.NodeConfig.C156_filter_timeout",
    "Verif.Props.NodeConfig.C156_filter_timeout_violated",
    "Verif.Props.NodeConfig.C156_boot",
    "Verif.Props.Startup.C156_cors_violated",
    "Verif.Props.Startup.C156_cors_ws",
    "Verif.Props.Startup.C156_exposed"
   ],
   "note": "The full statement is false of the code: negation proved in C156_missing_violated, C156_default_violated, C156_list_violated, C156_text_violated, C156_mistyped_violated, C156_switch_number_violated, C156_mistyped_switch_violated, C156_filter_timeout_violated, C156_cors_violated; the parts that hold are proved."
  },
  {
   "property": "C157",
   "status": "partial",
   "theorems": [
    "Verif.Props.NodeConfig.C157_format_violated",
    "Verif.Props.NodeConfig.C157_highest_violated",
    "Verif.Props.NodeConfig.C155_syncing"
   ],
   "note": "The full statement is false of the code: negation proved in C157_format_violated, C157_highest_violated; the parts that hold are proved."
  },
  {
   "property": "C158",
   "status": "proved",
   "theorems": [
    "Verif.Props.Lanes.C158_parts",
    "Verif.Props.Lanes.C158_share",
    "Verif.Props.Lanes.C158_lanes",
    "Verif.Props.Lanes.C158_mempool",
    "Verif.Props.Lanes.C158_unlimited"
   ],
   "note": ""
  },
  {
   "property": "C159",
   "status": "partial",
   "theorems": [
    "Verif.Props.Lanes.C159_large_violated",
    "Verif.Props.Lanes.C159_small_lane_violated",
    "Verif.Props.Lanes.C159_fits_partial",
    "Verif.Props.Lanes.C159_idle_violated",
    "Verif.Props.Lanes.C159_disabled_violated"
   ],
   "note": "The full statement is false of the code: negation proved in C159_large_violated, C159_small_lane_violated, C159_idle_violated, C159_disabled_violated; the parts that hold are proved."
  },
  {
   "property": "C160",
   "status": "partial",
   "theorems": [
    "Verif.Props.Startup.C160_run_exact",
    "Verif.Props.Startup.C160_life_exact",
    "Verif.Props.Startup.C160_runs",
    "Verif.Props.Startup.C160_indexed_partial",
    "Verif.Props.Startup.C160_start_violated",
    "Verif.Props.Startup.C160_gap_violated"
   ],
   "note": "The full statement is false of the code: negation proved in C160_start_violated, C160_gap_violated; the parts that hold are proved."
  },
  {
   "property": "C161",
   "status": "partial",
   "theorems": [
    "Verif.Props.Genesis.C161_import_partial",
    "Verif.Props.Genesis.C161_last",
    "Verif.Props.Genesis.C161_consistent_iff",
    "Verif.Props.Genesis.C161_export_valid",
    "Verif.Props.Genesis.C161_refused",
    "Verif.Props.Genesis.C161_passes_iff",
    "Verif.Props.Genesis.C161_two_denoms_violated"
   ],
   "note": "The full statement is false of the code: negation proved in C161_two_denoms_violated; the parts that hold are proved."
  },
  {
   "property": "C162",
   "status": "partial",
   "theorems": [
    "Verif.Props.Nodes.C162_reads",
    "Verif.Props.Nodes.C162_chain",
    "Verif.Props.Nodes.C162_agree",
    "Verif.Props.Nodes.C162_distinct",
    "Verif.Props.NodesOracle.C162_oracle",
    "Verif.Props.NodesOracle.C162_told",
    "Verif.Props.NodesOracle.C162_oracle_violated"
   ],
   "note": "The full statement is false of the code: negation proved in C162_oracle_violated; the parts that hold are proved."
  },
  {
   "property": "C163",
   "status": "partial",
   "theorems": [
    "Verif.Props.Refunds.C163_partial",
    "Verif.Props.Refunds.C163_transaction_partial",
    "Verif.Props.Refunds.C163_violated",
    "Verif.Props.Refunds.C163_repaired"
   ],
   "note": "The full statement is false of the code: negation proved in C163_violated; the parts that hold are proved."
  },
  {
   "property": "C164",
   "status": "partial",
   "theorems": [
    "Verif.Props.Callbacks.C164_exact_violated",
    "Verif.Props.Callbacks.C164_exact_repaired",
    "Verif.Props.Callbacks.C164_waiting_partial",
    "Verif.Props.Callbacks.C164_waiting_repaired",
    "Verif.Props.Callbacks.C164_lock_violated",
    "Verif.Props.Callbacks.C164_money_violated",
    "Verif.Props.Callbacks.C164_money_partial",
    "Verif.Props.Callbacks.C164_fresh_partial",
    "Verif.Props.Callbacks.C164_money_repaired"
   ],
   "note": "The full statement is false of the code: negation proved in C164_exact_violated, C164_lock_violated, C164_money_violated; the parts that hold are proved."
  },
  {
   "property": "C165",
   "status": "partial",
   "theorems": [
    "Verif.Props.InitCmd.C165_accepted_iff",
    "Verif.Props.InitCmd.C165_genesis",
    "Verif.Props.InitCmd.C165_keys",
    "Verif.Props.InitCmd.C165_refused_violated",
    "Verif.Props.InitCmd.C165_height_violated"
   ],
   "note": "The full statement is false of the code: negation proved in C165_refused_violated, C165_height_violated; the parts that hold are proved."
  },
  {
   "property": "C166",
   "status": "partial",
   "theorems": [
    "Verif.Props.Stack.C166_unanswered_iff",
    "Verif.Props.Stack.C166_forwarded_iff",
    "Verif.Props.Stack.C166_both_limits",
    "Verif.Props.Stack.C166_hooks",
    "Verif.Props.Stack.C166_limited",
    "Verif.Props.Stack.C166_refused",
    "Verif.Props.Stack.C166_nft",
    "Verif.Props.Stack.C166_both_violated"
   ],
   "note": "The full statement is false of the code: negation proved in C166_both_violated; the parts that hold are proved."
  },
  {
   "property": "C167",
   "status": "partial",
   "theorems": [
    "Verif.Props.Wiring.C167_builds",
    "Verif.Props.Wiring.C167_dangling_violated",
    "Verif.Props.Wiring.C167_report",
    "Verif.Props.Wiring.C167_unusable",
    "Verif.Props.Wiring.C167_copies",
    "Verif.Props.Wiring.C167_ends_iff",
    "Verif.Props.Wiring.C167_halts_violated",
    "Verif.Props.Wiring.C167_forwards"
   ],
   "note": "The full statement is false of the code: negation proved in C167_dangling_violated, C167_halts_violated; the parts that hold are proved."
  },
  {
   "property": "C168",
   "status": "partial",
   "theorems": [
    "Verif.Props.Follow.C168_transaction",
    "Verif.Props.Follow.C168_receipt",
    "Verif.Props.Follow.C168_logs",
    "Verif.Props.Follow.C168_pending_violated"
   ],
   "note": "The full statement is false of the code: negation proved in C168_pending_violated; the parts that hold are proved."
  },
  {
   "property": "C169",
   "status": "proved",
   "theorems": [
    "Verif.Props.Follow.C168_transaction",
    "Verif.Props.Follow.C168_receipt",
    "Verif.Props.Follow.C168_logs"
   ],
   "note": "The clauses of C168 that hold without exception; what does not hold is recorded there."
  },
  {
   "property": "C170",
   "status": "proved",
   "theorems": [
    "Verif.Hooks.C36_ack_result",
    "Verif.Hooks.C36_timeout_result",
    "Verif.Hooks.C36_ack_state",
    "Verif.Hooks.C36_timeout_state",
    "Verif.Hooks.C36_ack_runs",
    "Verif.Hooks.C36_timeout_runs",
    "Verif.Props.HookGas.C36_gas",
    "Verif.Props.HookGas.C36_gas_or_success",
    "Verif.Props.HookGas.C36_gas_exact",
    "Verif.Nested.C87_crash"
   ],
   "note": "The clauses of C36 that hold without exception; what does not hold is recorded there."
  },
  {
   "property": "C171",
   "status": "proved",
   "theorems": [
    "Verif.Props.Nodes.C162_reads",
    "Verif.Props.Nodes.C162_chain",
    "Verif.Props.Nodes.C162_agree",
    "Verif.Props.Nodes.C162_distinct",
    "Verif.Props.NodesOracle.C162_oracle",
    "Verif.Props.NodesOracle.C162_told"
   ],
   "note": "The clauses of C162 that hold without exception; what does not hold is recorded there."
  },
  {
   "property": "C172",
   "status": "proved",
   "theorems": [
    "Verif.Hooks.C35_plain",
    "Verif.Hooks.C35_calls",
    "Verif.Hooks.C35_success",
    "Verif.Hooks.C35_malformed",
    "Verif.Hooks.C35_atomic",
    "Verif.Hooks.C35_intermediate",
    "Verif.Hooks.C35_separate",
    "Verif.Props.HookGas.C35_gas_or_ack"
   ],
   "note": "The clauses of C35 that hold without exception; what does not hold is recorded there."
  }
 ]
}
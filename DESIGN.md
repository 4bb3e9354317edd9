# DESIGN — a Lean 4 model of initia-labs/minievm

## 1. Approach

`/repo` is read as text; every Lean definition in `lean/Verif/Model/*.lean` cites the file and lines it
models. Specifications that state what a user expects, without reference to the model's helpers, are in
`lean/Verif/Spec/*.lean`; helper lemmas are in `lean/Verif/Lemmas/*.lean`; the property theorems, with an
`example` showing their hypotheses are satisfiable, are in `lean/Verif/Props/*.lean`.

Go errors are values (`Option`/`Except`), panics that abort the transaction are a distinct error value where
they matter, `nil` is an explicit case. Integers that the code keeps in `big.Int`/`math.Int` are `Nat`/`Int`;
`uint64`/`uint8`/`uint256` values are `Nat` with explicit bounds or wrap-around where the property is about
it. Hash functions (keccak256, sha256), signature recovery and bech32 are parameters of the model with only
the stated assumptions (e.g. output length); nothing is assumed injective unless the theorem says so.

When the code violates a property, the negation is proved on a concrete witness (`..._violated`), and the
strongest true part is proved with suffix `_partial`; section 4 lists these disagreements.

## 2. Plan per property

* **C01 A reverted inner call undoes exactly its own effects and the outer call's effects are still committed** — Model the stack of cache contexts (heap of overlays + chain + snapshot list) exactly as Snapshot/RevertToSnapshot/Commit manipulate it, with the slice bound as written. Spec: plain state + stack of saved copies. Expected: FALSE (slice bound). Negation by witness; partial refinement theorem for all histories without nested revert; full refinement for the slice bound `i+1` to show the specification is satisfiable. Beyond the witness: `C01_exact` (Props/CacheMarks) says what the code does to every call tree, as a stack of marked copies of the state (Spec/CacheMarks); derived from it, what exactly is lost in every execution with one failing call, and when an execution is aborted.
* **C02 A failed top-level EVM execution leaves chain state untouched** — Same model; invariant: the base store is never written before Commit.
* **C03 Contract storage, code and code size never alias** — Byte-level keys over List UInt8; injectivity and disjointness lemmas by length/prefix; frame theorems on the store.
* **C04 Code, code hash and code size stay consistent** — Typed StateDB over a flat store; keccak uninterpreted with 32-byte output; big-endian uint64 round trip; induction over later operations.
* **C05 Transient storage is private to a contract and to one transaction** — Same store. Expected: address isolation FALSE (key has no address); negation + partial (per execution, per key last-write semantics).
* **C06 Self-destruct removes exactly the destroyed contract** — Model SelfDestruct/Selfdestruct6780/commit clean-up on the flat store; frame theorem.
* **C07 Logs are the emitted events, in order, without those of reverted frames** — Log map + size model; refinement to a list with saved lengths.
* **C08 Gas refund counter and EIP-3529 cap** — UInt64-as-Nat arithmetic with explicit wrap-around; bounds by omega; refund counter refinement to Option Nat.
* **C09 Warm/cold access list is exact** — Set semantics of access list; exact characterisation of Prepare.
* **C10 Contract creation never hijacks an existing account and account numbers stay unique** — Account map + next account number; invariant by induction over operations.
* **C11 Every EVM execution pays for the gas it burned** — Outcome state machine of EVMCall/EVMCreate over a gas meter. Expected: FALSE for 'remaining = 0 and error other than out-of-gas'; negation + partial.
* **C12 Precompile gas accounting and read-only safety** — Gas-meter model of ExtendedRun per method with the OOG recover; read-only decision table.
* **C13 A contract can only dispatch Cosmos messages as itself, and only if its frame survives** — Call-tree interpreter with a message list living outside the snapshots. Expected: 'reverted frame never dispatches' FALSE; negation + partial.
* **C14 Wei/token unit conversion loses no value** — Int/Nat arithmetic on the four conversion functions.
* **C15 The Cosmos fee of an Ethereum transaction covers its gas fee cap** — Arithmetic on computeGasFeeAmount.
* **C16 Gas refunds never exceed the fee paid** — LegacyDec as integers scaled by 10^18 with truncation.
* **C17 Ethereum transactions round-trip through the Cosmos encoding** — Structured tx model with hex strings, checksum case, decimal strings, v/r/s byte layout; round-trip theorem.
* **C18 An Ethereum signature authorizes exactly one Cosmos transaction** — Injectivity of the reverse conversion. Expected: FALSE (fee amount, non-EVM message types, legacy access list); negations + partial for the covered fields.
* **C19 Transactions are only accepted with valid signatures and the exact sequence** — Decision function of the decorator; soundness theorem.
* **C20 Replay protection: every included transaction advances its signers' sequences** — Sequence map model of ante + handler + post handler, parametrised by whether BaseApp keeps post-handler writes of a failed tx (outside the repo).
* **C21 Denom and ERC20 contract are in one-to-one correspondence** — Two finite maps updated by CreateERC20; bijection invariant by induction.
* **C22 Contract-derived denoms are canonical** — Hex/checksum model; round trip; negation for non-canonical strings accepted by HexToAddress.
* **C23 Supply equals the sum of balances for every token** — Solidity contract as a state machine over uint256; conservation by induction over calls.
* **C24 Only authorized callers move or create tokens** — Authorisation theorems on the same machine.
* **C25 Bank send moves exactly the stated coins** — Multi-token ledger model of ERC20Keeper.SendCoins over the contract machine.
* **C26 Bank burn removes exactly the stated coins** — Same ledger; expected FALSE for two coins including an evm/ denom; negation + partial.
* **C27 Bank mint creates exactly the stated coins and never touches third-party tokens** — Same ledger.
* **C28 Balance queries see every token an account holds** — Registry-completeness invariant: balance ≠ 0 → registered, for factory/registered tokens.
* **C29 ERC20 registry is permissioned** — Registry decision logic and invariant.
* **C30 Long Cosmos addresses never share an EVM identity** — Account-kind map; invariant by induction over conversions.
* **C31 BLOCKHASH window** — Map of heights; window invariant by induction for constant N; negation for shrinking N.
* **C32 Only the authority updates parameters, and only to valid values** — State machine of UpdateParams.
* **C33 Contract deployment allow-list** — Decision logic of Create.
* **C34 Genesis export/import preserves the EVM state** — Genesis record ↔ store model; round-trip.
* **C35 IBC receive hook runs only for allowed contracts, as an address nobody controls** — Decision logic of onRecvIcs20Packet with app/EVM callbacks as parameters; the gas side in Model/HookGas.lean, where it is refuted (C172 is what is left).
* **C36 IBC ack/timeout hooks never block packet processing and are atomic** — State-transformer model of ack/timeout with callback as parameter; the gas side over nested executions (Model/HookGas.lean).
* **C37 Indexer cache reads like the store** — Cache + store model with arbitrary eviction; refinement without Delete; negation for Delete of an uncached key.
* **C38 Indexed blocks answer transaction queries consistently** — Fold over the block's txs; expected index base FALSE (starts from 1); theorems with the real base + negation.
* **C39 Log indices are unique within a block** — Expected FALSE; negation + partial.
* **C40 eth_getLogs returns exactly the matching logs** — Filter model with an abstract bloom satisfying no-false-negative by construction (bit set model).
* **C41 Queued transactions are broadcast in nonce order without gaps** — State machine with queued map; invariant by induction over arrivals.
* **C42 Filter lifecycle** — Filter table state machine; expected FALSE for block/pending filters; negation + partial.
* **C43 Fee history shape** — resolveBlockRange / percentile walk / slot-indexed results model; block 0 defect.
* **C44 Bank send restrictions and permissions** — Model/Bank: decision logic of the message server and keeper on top of the ERC20 ledger and the address conversion; restrictions as arbitrary functions, composed by induction over configuration calls.
* **C45 Transactions pay gas for signature verification** — Gas-meter-through-decorator-chain model; expected FALSE; negation + partial.
* **C46 Read-only queries never change chain state** — Model/Query: an execution is an arbitrary program over the contexts it derives from the one it was given (reads, writes, CacheContext, write functions it owns); `Call`, eth_call and gas estimation run it in a cache context whose write function is dropped. Proved for all programs; and static calls (which run on the caller's own context) leave everything but their own access-list and refund bookkeeping unchanged, by an invariant over all cache layers.
* **C47 Transaction access lists are honoured** — Expected FALSE for MsgCall (nil is passed); negation + partial for MsgCreate.
* **C48 NFT classes and tokens map one-to-one and mint/transfer/burn are exact** — Class maps and token ownership ledger.
* **C49 ERC20 wrapper is always solvent** — Wrapper ledger; invariant by induction; refund part expected FALSE (self allowance never granted).
* **C50 IBC denom naming matches the transfer module** — String-prefix model with sha256 uninterpreted.
* **C51 Block tags resolve consistently** — Decision functions; inconsistency of (block,index) lookups proved.
* **C52 Addresses given as hex or bech32 denote the same contract** — Hex parser model; bech32 codec abstract.
* **C53 EVM chain id is a function of the chain name within range** — Arithmetic with keccak uninterpreted.
* **C54 Nested executions are isolated by execution index** — Key disjointness by execution index.
* **C55 Committed (original) storage is the value at transaction start** — Corollary of the base store being unwritten until Commit.
* **C56 Precompile effects belong to the frame that calls them** — Call-tree over a frame overlay plus base store, precompiles bound to the base context as CreateEVM binds them. Expected FALSE; negations + partial. `C56_exact` (Props/PrecompileMarks) says what the code does to every call tree with precompile calls, as a stack of pending changes over a store that changes underneath (Spec/PrecompileMarks); derived: how contracts and precompiles work beside each other, and that no precompile call is undone.
* **C57 Gas price seen by contracts is the configured price in wei, rounded down** — scaled-integer LegacyDec and uint8 exponent. Expected FALSE near decimals 247; negation + partial.
* **C58 A hook call may spend exactly what was received** — on the trace of operations of the receive hook (Model/Hooks). Expected FALSE for Bech32 contract addresses and for `evm/` denoms; negation + partial.
* **C59 The index survives crashes** — events finalize/commit/flush/crash over Model/Indexer; SDK commits before calling listeners (by contract). Expected FALSE in the window between commit and flush; negation for every continuation + partial.
* **C60 Submissions of one sender are serialised** — interleaving semantics of acquireAccMut/releaseAccMut with an arbitrary number of goroutines; invariant proof; the unlocked map read in releaseAccMut is a data race (negation).
* **C61 The raw transaction served is the one that was signed** — NewRPCTransaction / ToTransaction on Model/TxUtils.EthTx.
* **C62 Headers form a hash chain** — on Model/Indexer. Expected FALSE after a block that could not be indexed.
* **C63 The answer to a submission is about that submission** — on Model/SendQueue. Expected FALSE: the flush loop returns the error of any queued transaction; negation + partial.
* **C64 Watching the mempool does not change it** — Model/TxPool: `Insert` over any wrapped mempool. Transparent for verified transactions (proved with the signature check of Model/TxUtils); notification comes before the insertion: negation + partial.
* **C65 Transaction pool views are complete** — Model/TxPool: the two listing functions over any pool. Expected FALSE (first 100 or 30 only, one unconvertible transaction fails the call, equal nonces overwrite, counts include other transactions); negations + exact characterisation.
* **C66 Bank genesis** — Model/Bank: `InitGenesis`/`ExportGenesis` over the ERC20 ledger; import theorem by induction over the balance list; restart = EVM import (exact, C34) then bank import. Expected FALSE (balances doubled, evm/ tokens and zero supplies make the import panic); negations.
* **C67 Bank views** — Model/Bank: iterations with stop, listings, metadata queries; negations where the documentation is not met.
* **C68 eth_call** — Model/Query: request construction and parsing; simulation proof that the throw-away cache does not show in the answer; negations for the ignored amount and the zero address.
* **C69 Oracle queries** — Model/Query: the message objects shared by all queries of a process; serial histories and two-thread schedules.
* **C70 Abstract Ethereum state** — Spec/Eth.lean writes the state a contract developer believes in (accounts with roles, balances, slots, per-execution accumulations) without keys or encodings; `abs` maps store contents to it; forward simulation by induction over histories of starts, operations and commits, plus agreement of every reader.
* **C71 Fresh storage** — invariant on the abstract state (only contracts have storage), transported by C70.
* **C72 Value transfers** — `Value.enter` (check, then nested ERC20 transfer) over the token ledger of C23; all three
  outcomes characterised.
* **C73 Self-destruct** — `Value.destruct` (burn, mint, burn again) on the same ledger.
* **C74 Units** — arithmetic of the decimal conversions, against the balances of `Value`.
* **C75 Spending** — induction over `Value.Prog`, the executions of arbitrary contract code as far as tokens go.
* **C76 The quoted gas price is enough** — Model/GasPrice: what eth_gasPrice quotes against what the fee checker asks of the converted transaction; proved for every cap worth the configured price, with the exact condition; FALSE below one wei and for prices in other denoms (negations).
* **C77 Gas price at least the base fee** — Model/GasPrice: the two conversions of context_utils.go are monotone; FALSE for fees in other denoms and without a fee contract (negations).
* **C78 Events and contract addresses reach the index unchanged** — Model/Messages: response construction and `unpackData`; round trip of the text encoding, protobuf as a codec that round-trips.
* **C79 A message executes exactly the call it says, as its sender** — Model/Messages: `prepare` characterised exactly (iff) for non-negative amounts; composed with Model/TxUtils for signed transactions. Expected FALSE for negative amounts (taken modulo 2^256): negation.
* **C80 Stored data of different kinds, accounts, executions and blocks never mix** — Model/Keys: key bytes of every collection, prefix ranges as byte intervals (the collections library by contract); injectivity and `inRange = prefix` proved.
* **C81 A transaction pays once and executes once** — Model/Pipeline: ante handler, messages and post handler composed as cosmos-sdk's runTx does (contract), executions arbitrary; induction over histories. Expected FALSE for failed transactions (sequence put back, C20) and for senders written in two ways: negations.
* **C82 A contract is created only where nobody is** — Model/Create: GetStorageRoot on the World model, go-ethereum's `create` as the order of its checks (contract), constructors arbitrary; direct proofs for every state, inductions over histories for records and re-creation; composition with SigAnte for the wallet's address.
* **C83 The wrapper sends the transfer its caller asked for** — Model/WrapMsg: Strings.sol on an explicit buffer; the message text; the JSON stream decoder (scanner and pushdown parser, first value only, last duplicate wins, strict about unknown members) by contract; induction over digits and characters. Refuted: every ordinary call is rejected by the decoder because of the member `async_callback`, and a crafted receiver text closes the object early and makes the wrapper send any amount of any denom it holds to anybody.
* **C84 Signature checks are paid for, and wallets are served alike** — Model/SigGas: trees of keys and signatures, the gas consumer with and without ethsecp256k1, verification counting its curve operations; mutual induction over trees. Refuted: the deposit-hook handler uses cosmos-sdk's gas consumer and refuses every Ethereum key; behind the fee decorator (Model/AnteSigs) a transaction with its fee in the fee denom has its signatures checked for nothing.
* **C85 A fee denom that governance sets can be used** — Model/FeeDenom: the test on the token ledger of Model/Value, the parameter of C32 made concrete; invariant (mintable token with consistent books) kept by every execution, and progress by induction over execution trees. Refuted: the denom of the zero address passes the test.
* **C86 The memo of a transfer is obeyed as documented** — Model/Memo: Go's encoding/json reading of the memo (scanner of C83, float64 rounding of numbers in interface{}, shortest decimal printing, struct decoding), put in place of the parameter of the hooks model of C16. Proved for ids up to 2^53; refuted: odd ids above 2^53 reach the contract as another id, the top 1024 ids are dropped, the README's contract_addr never calls back, the README's access_list object is always refused, a directed memo without a message is a plain transfer.
* **C87 Every execution ends within its gas** — Model/Nested: execution, dispatch and handlers (interaction trees) with the recursion made explicit by fuel; the gas left shrinks by at least 160 per nesting level, so fuel gas/160+1 is enough, and more fuel changes nothing. Refuted for simulations: each level gets the whole simulation limit on an infinite meter.
* **C88 Somebody else's token cannot spoil a balance listing** — Model/Listing: the loop on a gas meter with arbitrary token code; a failing call of an ordinary token has used all gas, so that the next store access aborts: never a wrong answer, by induction over the list. Refuted as to availability: one token that burns all gas blocks the listing, and any contract may enter itself into it.
* **C89 A module's account stays the module's** — Model/ModuleAcct: the bank keepers and token calls with the accounts created on the way. An invariant of every operation, by induction over histories: at each address an account stays an account and stays (or stays not) a module account. Refuted as to the last part: a registered token, or a transfer to a longer address, can create an ordinary account at the address of a module not used so far, without the block list being consulted.
* **C90 An export lists every coin once, and nobody can prevent it** — Model/Export: the listing over accounts of any length, on the states of Model/ModuleAcct. The list is computed exactly (one entry per owner); with 20-byte accounts the sum is shown equal to the supply from C23 and C28; holders keep accounts, by induction over histories. Refuted: an account that was sent coins at a longer address and is then used makes the export panic; users with longer addresses are listed twice; destroyed contracts' tokens are not listed.
* **C91 A gas estimate is enough** — Model/Estimate: the simulated and the real transaction on gas meters, from Model/Fees (ante) and Model/Exec (machine). The estimate and the condition for success are computed exactly, for all programs that behave the same above the gas they need; hence when the estimate is enough. Refuted: refunds beyond the 250000 added for the fee, long access lists, programs beyond the simulation limit.
* **C92 No user's transaction stops the nodes** — Model/Halt: the conversion of transactions with optional public keys (agreeing with Model/TxUtils where keys are present), the listener's loop, and a node with restarts. Shown: accepted transactions with keys convert, and a chain of them (EVM messages behind Ethereum signatures) is always taken. Refuted: a transaction without public key whose memo reads as Ethereum metadata makes every node panic at its block for ever; an Ethereum signature over another module's message makes the listener fail.
* **C93 The receipt says what the transaction cost, and gas adds up over a block** — Pipeline's whole transaction with the fee of `ConvertEthereumTxToCosmosTx` beside a model of receipts and headers. Exact two-sided bounds on the payment in wei (within three base units of cap × (limit − refunded gas)); the receipt's cost is a lower bound for successes and exact when everything unused is refunded; violations: default refund ratio, failed, rejected and overrunning transactions, headers of blocks with Cosmos transactions.
* **C94 What the precompiles tell a contract is true, and can be used** — Model/Answers: the typed methods over the account, denom and registry models (Identity, Denom, Tokens). Proved: round trips, that every accepted message's signers have the caller's EVM identity in every reachable state, blocked answers, registry answers for registered tokens. Refuted: longer addresses (to_evm_address fails; the own name is not accepted), module addresses before their account exists, evm/ denoms without token, registration by unregistered contracts.
* **C95 Paging through a listing shows everything once, whatever happens in between** — Model/Paging: cosmos-sdk's CollectionPaginate by contract over the sorted keys of the registry, the page of coins sorted by denom; Spec/Paging: the client as a relation over changing chain states. Proved by induction over the client's requests with the invariant that what is left are the keys from the next key on; histories from Registry.Reach. Refuted: order across pages, pages with nothing but zeros, zero supplies, paging by offset.
* **C96 The metadata of a token tell how to show its amounts** — Model/TokenMeta: GetMetadata over the contract's answers. Specification: the SDK's Metadata.Validate and the scale of a display unit. Proved: base, validity unless the shortened denom is none, scale without decimals, unambiguous names for one prefix. Refuted: validity (u1x), decimals are ignored for every token that has any, uinit and minit share a display name.
* **C97 No inflation: the books balance over whole histories** — Model/Books: one act type over Verif.Bank, Verif.Value and Verif.Tokens, transactions, histories. Spec/Books: what acts issue and redeem. Proved by refinement of every act to the ledger's operations and an invariant (denoms have contracts of their own, owned by the chain) over histories; contract code by C75_token.
* **C98 Nobody else can take your money** — Spec/Safe: holders, what an act takes, foreign acts. Over Model/Books. Proved by an invariant per act (only the holder's addresses convert to his EVM address; forced transfers and burns move only from the converted address; contract code by message_safe of C75) and induction over transactions and histories. Two witnesses show that the hypotheses (account in use, no approvals) are needed.
* **C99 A log query gives one answer, whatever the schedule** — Model/LogStream: transition system of the two goroutines, rendezvous, closing of the channels, environment. Spec/LogStream: the sequential answer. Proved by an invariant relating what was collected to what is left of the walk, a progress lemma and a lexicographic rank; linked to the walk of Model/LogFilter.
* **C100 What a transaction can cost, on the token ledger** — Model/Charges: ante fee, signing, acts of Model/Books, refund through the ledger; Spec/Charges: the bill. Proved by composing the per-transaction lemmas of C98 (loss) and C97 (supply) with the exact send of C25.
* **C101 After a rollback JSON-RPC answers about the chain as it is** — Model/Rollback on Model/Indexer: executing a block appends and indexes, a rollback cuts the chain and leaves the index. Invariant over histories (entries come from executed blocks, positions of current blocks are theirs, links); the list by uniqueness of sorted maps. Negations on a small chain.
* **C102 A read reads what it names** — Model/ReadText: the chain of conversions from the JSON-RPC argument to the store key and back. The number a string of digits writes is specified by a fold over the digits; decoding is shown to compute it. What fails: the gRPC query does not refuse more than 64 digits (it reads the slot with the same last 64), and net_version is neither the chain id of eth_chainId nor of signatures.
* **C103 The software upgrade changes two parameters and adds one contract, and a chain that is already upgraded accepts it** — `Model/Upgrade.lean`: the handler, `DeployERC20Factory`, `DeployERC20Wrapper` and `Initialize` over the creation model of C82, the parameters of C32 and the block hashes of C31, with any constructors. Scope by C82's description of the state a constructor starts in and the store keys of `SetCode`; that it cannot be executed twice by C82's invariance of an address in use along any history; retention by induction on blocks. Constructors are assumed to change their own address only (hypothesis `Confined`), as those of the two compiled contracts do.
* **C104 The HTTP and the WebSocket endpoint of a node are interchangeable** — `Model/Endpoints.lean`: two instances of the submission model of C41 that share only the account sequences, and the filter model of C30. Each instance simulates a single backend whose chain is moved by the other's transactions (induction on the interleaving), so that C41 holds at each; the rest of the claim is refuted by runs.
* **C105 What a contract is told about its block and transaction is what JSON-RPC serves for them** — `Model/BlockEnv.lean`: the block context as built for an execution and the header as built by the listener, over a chain given by what consensus hands over block by block. The agreeing fields are proved for all executions; PREVRANDAO is related to BLOCKHASH through the window theorem of C31; the other fields are refuted.
* **C106 The receiver of an NFT gains nothing by acting while it is being called** — Model/NftHooks: a call is a tree: what it does before the hook, the calls made during the hook, what it does after. Mutual induction over trees: every tree linearises to a sublist of its calls (`C106_nothing_gained`), from which balances and safety follow.
* **C107 A token that does not exist has no texts, and a new one has its own from the start** — Model/NftHooks (see C106). Refuted: `mint` writes the texts after the hook, so the receiver sees none or those of the number's previous token (`C107_early_violated`), and a token burned in the hook, or at any time, keeps its texts (`C107_ghost_violated`). Holds: at the end of a mint (`C106_minted`).
* **C108 NFT contracts keep their books** — the clauses of C48 that hold without exception: `C48_balances`, `C48_authority`, `C48_permissions`, `C48_query`.
* **C109 Transfers, burns and mints of NFTs by the chain are exact** — the clauses of C48 that hold without exception: `C48_transfers`, `C48_transfers_ok`, `C48_burns`, `C48_burns_ok`, `C48_mints`, `C48_mints_ok`.
* **C110 An NFT class keeps its own contract** — the clauses of C48 that hold without exception: `C48_classes`, `C48_class_stable`, `C48_class_create`.
* **C111 The Cosmos messages of a contract are signed by it alone** — the clauses of C13 that hold without exception: `C13_authorized`, `C13_static`, `C13_all_or_nothing`.
* **C112 The EVM creates contracts only at free addresses, with fresh account numbers** — the clauses of C10 that hold without exception: `C10_create`, `C10_numbers_unique`.
* **C113 Who an address is for the EVM never changes** — the clauses of C30 that hold without exception: `C30_short`, `C30_stable`, `C30_rejects`, `C30_used`, `C30_frame`.
* **C114 The cached index store reads its own writes** — the clauses of C37 that hold without exception: `C37_reads`, `C37_has`, `C37_flush`.
* **C115 Receipts, block logs and log filters agree** — the clauses of C39 and C40 that hold without exception: `C39_receipt`, `C39_unique`, `C40_bloom`, `C40_filter_logs`.
* **C116 Transactions leave the queue of a node in order, once** — the clauses of C41 that hold without exception: `C41_consecutive`, `C41_once`, `C41_in_order`, `C41_stale`, `C41_drained`.
* **C117 Every event reaches every installed filter once, in order** — the clauses of C42 that hold without exception: `C42_delivery`, `C42_poll`, `C42_uninstalled`, `C42_no_deadlock`, `C42_once`.
* **C118 A fee history is complete, in order, and computed as documented** — the clauses of C43 that hold without exception: `C43_each_block_once`, `C43_not_stuck`, `C43_terminates`, `C43_answer`, `C43_next_base_fee`, `C43_rewards_monotone`, `C43_rewards`, `C43_empty_block`, `C43_no_panic`, `C43_rejects`, `C43_range`.
* **C119 Bank permissions and restrictions are obeyed** — the clauses of C44 that hold without exception: `C44_restrictions`, `C44_modules`, `C44_delegate`, `C44_mint`, `C44_burn`, `C44_switches`, `C44_admin`, `C44_send_accepts`, `C44_modules_accounts`, `C44_supply_accounts`.
* **C120 Wrapped tokens can be redeemed** — the clauses of C49 that hold without exception: `C49_redeem`, `C49_wrap`, `C49_dust`.
* **C121 Block methods answer about the block asked for** — the clauses of C51 that hold without exception: `C51_blocks`, `C51_by_hash`, `C51_past_number`, `C51_default`, `C51_neither`.
* **C122 However a number or an address is written in hex, it is read as that number or address** — the clauses of C52 and C79 and C102 that hold without exception: `C52_hex`, `C52_roundtrip`, `C79_access`, `C79_access_shape`, `C102_storage`, `C102_storage_refused`.
* **C123 Numbers survive being text** — the clauses of C58 and C83 that hold without exception: `C58_amount_texts`, `C58_signed_texts`, `C58_amount`, `C83_decimal`, `C83_hex`, `C83_hex_fits`.
* **C124 The sender locks of a node are sound** — the clauses of C60 that hold without exception: `C60_mutual_exclusion`, `C60_no_panic`, `C60_progress`, `C60_no_leak`.
* **C125 JSON is read as JSON says** — the clauses of C83 and C86 that hold without exception: `C83_json`, `C83_message`, `C83_message_unique`, `C86_json`, `C86_json_unique`, `C86_accepts`, `C86_decodes`, `C86_canonical`.
* **C126 Fees are collected before, and refunded after, exactly** — the clauses of C81 that hold without exception: `C81_payer`, `C81_rejected`, `C81_included`, `C81_failed`, `C81_succeeded`, `C81_pays`, `C81_refund_paid`, `C81_collected`.
* **C127 Signature checks are charged for wherever gas is counted** — the clauses of C84 that hold for every transaction whose fee is not exactly one coin of the fee denom: `C84_paid`, `C84_types`, `C84_limit`, `C84_underpaid`, `C84_wallet` about the meter the signature decorators are given, and `C84_chain`, `C84_covered` (Model/AnteSigs: the fee decorator around them) about the transaction's own.
* **C128 A transfer with a contract call is never taken for a plain one** — the clauses of C86 that hold without exception: `C86_never_plain`, `C86_message`.
* **C129 A balance listing that is answered is right** — the clauses of C88 that hold without exception: `C88_exact`, `C88_listed`.
* **C130 A module account that exists stays and works** — the clauses of C89 that hold without exception: `C89_kept`, `C89_works`, `C89_lost`.
* **C131 An export lists what the queries report** — the clauses of C90 that hold without exception: `C90_entries`, `C90_holders`.
* **C132 Paging shows every token once while the chain goes on** — the clauses of C95 that hold without exception: `C95_balances`, `C95_supplies`, `C95_page`, `C95_whole`, `C95_ends`, `C95_total`.
* **C133 After a rollback nothing is made up** — the clauses of C101 that hold without exception: `C101_rollback`, `C101_exact`, `C101_executed`.
* **C134 The upgrade does what it says and no more** — the clauses of C103 that hold without exception: `C103_scope`, `C103_valid`, `C103_hashes`, `C103_factory`, `C103_succeeds`.
* **C135 Contracts are told the number, time and chain that JSON-RPC serves** — the clauses of C105 that hold without exception: `C105_block`, `C105_time`, `C105_random`, `C105_random_call`, `C105_origin`.
* **C136 Each endpoint of a node is sound by itself** — the clauses of C104 that hold without exception: `C104_each`, `C104_order`.
* **C137 What a gas estimate is** — the clauses of C91 that hold without exception: `C91_estimate`, `C91_succeeds`, `C91_message`.
* **C138 Receipts and headers add up** — the clauses of C93 that hold without exception: `C93_paid`, `C93_cumulative`, `C93_header`.
* **C139 What the precompiles say about addresses and denoms leads back** — the clauses of C94 that hold without exception: `C94_address_back`, `C94_text_back`, `C94_message_identity`, `C94_blocked`, `C94_denom_back`.
* **C140 A bank genesis is imported exactly** — the clauses of C66 and C67 that hold without exception: `C66_import`, `C66_settings`, `C67_send_enabled`.
* **C141 When the quoted gas price is enough, and what a wallet can afford** — the clauses of C76 and C74 that hold without exception: `C76_enough`, `C76_exact`, `C74_affordable`.
* **C142 Code, network version and token metadata are those of what was asked** — the clauses of C102 and C96 that hold without exception: `C102_code`, `C102_version`, `C102_version_default`, `C96_base`.
* **C143 A bank query about one denom is answered, and the answers fit together** — Model/BankQuery models the three queries and the keeper methods behind them with their three outcomes (answer, error, panic). Refuted: `SupplyOf` panics for a denom that is not in use although `Balance` answers zero (`C143_supply_violated`); `Balance` panics for `evm/` denoms that name no contract (`C143_balance_violated`); two spellings of one contract are answered as two coins (`C143_spelling_violated`); `HasSupply` denies supplies that `SupplyOf` reports (`C143_has_violated`). What holds is C144.
* **C144 A bank query about one denom never answers wrongly** — Model/BankQuery (see C143). Soundness by cases (`C144_sound`), answers for tokens and unused denoms (`C144_token`, `C144_unused`), agreement with the listing after any history via an invariant on names and listings (`C144_listing`), sum of balances from C23 (`C144_sum`), sends from C25 (`C144_spend`).
* **C145 A revert is reported as a revert, with its data** — Model/RevertText models the texts of every layer on top of an execution given by its outcome and the gas left over; Spec/RevertText is a client that reads a text from its end. Proved: the client gets the data back for every data, reason and prefix if gas is left over (`C145_data_partial`, `C145_rpc_message_partial`), injectivity (`C145_distinct`), no other error of the execution reads as a revert (`C145_only`), success and failure are kept apart (`C145_success`). Refuted: no gas left over (`C145_zero_gas_violated`, and `C145_zero_gas` in general), static calls (`C145_static_violated`), the JSON-RPC error object (`C145_rpc_violated`).
* **C146 The answer to a contract's oracle query is the answer to its own query** — Model/Oracle: any number of executions of query_cosmos as small-step programs over the request and response objects of the whitelist, which they share. Proved: executions on different paths do not influence each other under any schedule (`C146_paths`), executions that use a path one after the other get the answers to their own texts (`C146_serial_partial`), so does any execution that has the objects for itself (`C146_own_objects`, which is what a repair would give), only the three oracle queries are answered (`C146_whitelist`). Refuted: an execution is told another's answer (`C146_answer_violated`), even identical queries disturb each other (`C146_twin_violated`).
* **C147 Success and failure are never confused** — Clauses of C145 that hold without exception: `C145_success`, `C145_only`, `C145_distinct`.
* **C148 Only the oracle is answered, and queries of different kinds do not disturb each other** — Clauses of C146 that hold without exception: `C146_whitelist`, `C146_paths`, `C146_own_objects`.
* **C149 The two hashes of a transaction lead to each other** — On the model of the indexer (Model/Indexer): an invariant of the two collections kept by the first loop of ListenFinalizeBlock whatever it does afterwards, then induction over the blocks. Assumes that two transactions with the same Cosmos hash carry the same Ethereum transaction (no SHA-256 collision on the chain).
* **C150 A command line is executed as it is written** — Model/Cli models the commands up to the message; composed with the model of the message server (Model/Messages). Proved as equivalences with a specification of the texts. Negative values (taken modulo 2^256), files with a line break or 0x and the documented example are counterexamples.
* **C151 Interchain accounts do what they are allowed to, and can use the chain** — A router over arbitrary handlers with authz's MsgExec as a nested message; the host's authentication and cached execution by contract. Proved: only listed messages signed by the account alone, all or nothing, and listed messages of existing modules run. The rest is false and its negations are proved: because MsgExec is on the list, a packet that wraps its messages into the account's own MsgExec gets exactly what an unrestricted list would give; contract calls sent directly are always refused; four entries belong to modules the chain does not have.
* **C152 IBC transfers can be rate limited** — The same router; the limits are changed only by the rate limiting module's own messages (frame condition). Proved: a limit, if there were one, is applied; and the negation of the rest: the module is wired into the transfer stack but not into the application, so by induction over histories and nested messages there is never a limit and every transfer passes.
* **C153 The default genesis is consistent** — The configuration functions over a record of the fields they write. Proved by induction over the markets.
* **C154 A launched chain is what was asked for** — The configuration functions of C153. Proved for denoms other than `umin` and for lists that name their types; both exceptions are proved to be violations.
* **C155 The pool summary lists the pool, and a node knows whether it has caught up** — Lines over the answer of the model of txpool_content (C65); hexadecimal numbers and checksummed addresses are proved injective and free of blanks, so that a line can be taken apart.
* **C156 JSON-RPC servers run as configured** — Options by environment and file (there are no flags: the function that adds them is never called), spf13/cast by contract, the registration loop. Proved: writing and reading back, the served methods for names joined by commas, the defaults of x/evm. Negated: defaults of unset options, default namespaces nobody implements, lists, blanks.
* **C157 Pool summary and progress are as Ethereum's** — False for every line and for every node that is behind: both negations are proved.
* **C158 Proposed blocks keep to the limits and every kind of transaction has its share** — The lanes as configured over block-sdk's limits and proposal updates (by contract); what a lane selects is arbitrary. Proved over the sequence of lanes with the sums of the parts. The mempool: every sequence of transactions offered to the lanes, by induction.
* **C159 What fits into a block gets into one** — Negated: a transaction of more than seven tenths of a block's gas or bytes (a tenth for oracle updates and free transactions) is admitted but in no block, and three tenths of each block stay empty without them, because the default lane has a share of its own instead of the rest.
* **C160 A node indexes what it finalizes, and serves JSON-RPC, whatever else it runs** — The start of a node as a function of its options, and its life as a list of runs. Proved by induction for nodes whose other (Cosmos) indexer is enabled in every run; negated otherwise: with that indexer disabled the Ethereum indexer is dropped too, so a node with JSON-RPC panics at its start, and one without has a gap in its index for ever.
* **C161 A genesis file that validates gives a consistent chain** — Over the model of C34. Proved: files whose correspondences are one-to-one give exactly the listed, consistent state; exports validate; files without valid parameters or a factory do not. Negated: the validation looks at nothing else, so every valid file has valid neighbours with two denoms for one contract and without a wrapper.
* **C162 All nodes compute the same state, whatever else they do** — A node with the in-memory counter of executions that block execution shares with everything else, and block programs that choose each operation from everything that can be read. Proved by refinement: naming executions by their position in the block commutes with every operation of the state database, so every node refines one reference machine that has no counter. Oracle answers, which blocks can depend on, come from objects shared with queries (C146): with them the property is false (C162_oracle_violated), and C171 is what is left of it.
* **C163 Storage writes never abort an execution through the refund counter** — The refund counter and the slots are keys of the layered store of the cache stack model; the refund rule of SSTORE is go-ethereum's, by contract, including that it moves the counter before the gas is checked. Invariant: in every context of the stack the counter is at least 4800 times the number of cleared slots of any list of distinct slots. Proved for every history of the code in which priced writes are paid for, and for transactions without failing inner calls; refuted in general by a call tree in which a frame's revert does not restore the counter; proved in general for the repaired revert.
* **C164 What a contract has written is still there when a contract it called returns** — Call trees over the cache stack model. Exact result for a chain of n nested contracts each writing on entry, with k failing calls made by the innermost: what it sees afterwards and what is committed, for all n and k (a refutation for k at least 1). Corollaries for locks and for a debit-call-credit ledger; proved for called code without failing calls; proved in general for the repaired revert.
* **C165 `init` sets up a node as asked and destroys nothing** — The effects of the command on the home directory, in its order. When it succeeds (iff), the exact genesis, what happens to keys; refutations: a refused --recover replaces the validator's key and resets its signing record; the first height cannot be chosen.
* **C166 Every packet that arrives on a transfer channel is answered** — The stack as a composition of layers in the order of construction, where a layer may postpone its acknowledgement and calling a method on that nil panics. Proved: exactly which packets stay unanswered (iff), exactly when a packet is forwarded, that without forwarding the hooks behave as in C35, limits and refusals; refutation: a memo that asks for a call and for forwarding.
* **C167 Coins sent to a forwarding account are sent on and the block ends** — The constructor as a straight-line program over memory cells with pointers, copies and nil; its list of unusable references, computed exactly, with a proof that the report is complete. The forwarding module's end block on top: which blocks end (iff), what would be sent with a keeper that can be called; refutation: one transfer stops the chain.
* **C168 A transaction can be followed by its hash** — The two queries on a node with a pool, a queue and an index built from any list of blocks. Proved: what is answered for every hash, as an equation with the last place of that transaction among the indexed blocks (transaction and receipt), and the fields of the logs; refutation: what waits is not found.
* **C169 What is answered for a transaction hash is right** — The clauses of C168 that hold, as equations between the answers and the last place of the transaction among the indexed blocks.
* **C170 Only an aborted transaction can keep an acknowledgement from being processed** — The clauses of C36 that hold; its gas side is modelled over the nested executions of C87 (Model/HookGas.lean): the callback as a handler on the relayer's meter. Refuted for C36: a contract that leaves a message it does not leave the gas for blocks its packet at every gas limit; one that runs out of gas takes the rest of the relayer's transaction with it; one that panics the machine (C163) blocks its packet outright.
* **C171 Nodes agree on blocks as long as their oracle questions are not shared** — The clauses of C162 that hold. Blocks whose transactions depend on oracle answers are added to the node of C162 (Model/NodesOracle.lean), with the shared request and response objects of C146. Refuted for C162: one eth_call to the oracle while a block asks it makes a node store something else than the others.
* **C172 A delivered packet calls only allowed contracts, all or nothing** — The clauses of C35 that hold; the gas side over the nested executions of C87 (Model/HookGas.lean: delivery as a handler on the relayer's meter, with the storing of the acknowledgement). Refuted for C35: a contract that uses all the gas leaves no acknowledgement of an error, at no gas limit: its packet cannot be delivered; nor can that of one that panics the machine (C163).

## 3. Trusted base

* Lean 4.33.0's kernel; axioms used by the theorems: at most `propext`, `Classical.choice`, `Quot.sound`
  (checked with `#print axioms`). No axioms are added, no compiled-code tactics are used.
* The faithfulness of the hand-written model to the Go/Solidity text (citations beside each definition).
* Library code that is not in /repo (cosmos-sdk stores and BaseApp, go-ethereum interpreter, collections,
  bigcache, ibc-go, encoding/json, jsonpb) is modelled by its documented contract; each such assumption is stated on
  the definition. C86 is about the concrete reading of memos by encoding/json (numbers in an `interface{}` are float64).

## 4. Known disagreements between code and properties

Each entry is a theorem of this development: the negation of (part of) a property, on a witness or for a
whole class of inputs. The positive remainder of each property is in its `_partial` theorem(s).

* `C01_abort_violated` (CacheMarks.lean): C01 (violated, aborts). A contract, in any frame, calls another and is prepared for its failure. The other makes two calls that fail, and then fails itself. Then the transaction is not continued with the caller: the execution is aborted, by an index out of range, whatever the frames around did and were going to do.
* `C01_one_violated` (CacheMarks.lean): C01 (violated), for every execution with one failing call. Frames `fs` are nested in each other and do whatever they like, with any calls that succeed, before and after a call that fails and that the innermost of them makes. While the execution lasts everything looks right. But what is committed is the state at the time the last frame was entered before the failing call: all that anybody did since then is lost, to the end of the transaction — including what the outer frames did after the inner ones had returned.
* `C01_violated` (CacheStack.lean): C01 (violated by the code). A top-level call writes key 1, makes an inner call that reverts, and then returns successfully; after the commit the write is gone although no surviving frame undid it. (The slice `s.snaps[:i]` at statedb.go:589 drops the snapshot that is still in use.)
* `C01_violated_loses_everything` (CacheStack.lean): C01 (how bad it is): whatever a top-level call does before and after its first reverting inner call — any computations at all, as long as it makes no further calls — the commit publishes none of it: the committed store is the store before the transaction.
* `C02_two_violated` (FrameMarks.lean): C02, C55 (violated), for every top-level call that makes two failing calls. Whatever it computed before and in between is thrown away, and all that it computes afterwards — until it enters another frame — goes directly into the store: it counts as committed at once, and stays although the top-level call fails in the end.
* `C02_violated` (CacheStack.lean): C02 (violated by the code at the level of the state database): a top-level call that catches two reverting inner calls, then writes key 1 and finally reverts itself leaves the write in the store, without any commit. (After the second revert the snapshot ids have shifted, `RevertToSnapshot(-1)` switches to the initial context, and later writes go straight to the store.)
* `C05_violated` (World.lean): C05 (violated by the code): a value stored by contract 7 is read by contract 8, which never stored anything (the store key at statedb.go:543,550 does not contain the address).
* `C05_violated_all` (World.lean): C05 (how bad it is): *every* transient store by any contract is what every other contract reads under the same key.
* `C07_violated` (Frames.lean): C07 (violated by the code): a call that emits an event and then catches one reverting inner call reports no logs at all, whatever the event and whatever the chain state.
* `C101_ahead_violated` (Rollback.lean): C101 does not hold: after the rollback to height 1 blocks 2 and 3 are still served.
* `C101_dropped_violated` (Rollback.lean): C101 does not hold: a transaction of a dropped block, which the chain does not contain, is served with a receipt saying that it succeeded; nothing removes it.
* `C101_hash_violated` (Rollback.lean): C101 does not hold: the hash of a dropped block is resolved to the block that replaced it, whose hash is another.
* `C101_violated` (Rollback.lean): C101 does not hold: the index keeps the positions of the dropped block, so the new block 2, with one transaction, is served with two, the second being one that the chain does not contain; its log is among the block's logs.
* `C102_state_violated` (ReadText.lean): C102 does not hold for the gRPC query: more digits are not refused. A number that no slot has, 2^256 or more, is answered with the value of the slot with the same last 64 digits.
* `C102_version_violated` (ReadText.lean): C102 does not hold: net_version is not the network id that eth_chainId and signatures use. Chains of different names, with different chain ids, answer the same; whatever the hash function, a chain `name-1` calls itself network 1.
* `C103_again_violated` (Upgrade.lean): C103, defect: the upgrade can be run once. After a first success — or after a genesis of this version, which deploys the same wrapper — and any history of executions that keeps the wrapper, with whatever was done to parameters and recorded hashes, the handler fails: the node halts at the height of the plan, and every node does.
* `C103_genesis_violated` (Upgrade.lean): … in particular on a chain whose genesis is of this version.
* `C104_filter_violated` (Endpoints.lean): C104 does not hold for filters: a filter made at one endpoint can be polled there, but at the other, whatever happens there, neither be polled nor uninstalled: it is not found.
* `C104_gap_violated` (Endpoints.lean): C104 does not hold: a transaction waiting at one endpoint is not sent when the gap before it is filled at the other. Sender 7 sends nonce 1 over HTTP and nonce 0 over WebSocket; both are answered without error, only nonce 0 is sent, and however long everything else goes on — at the WebSocket endpoint and on the chain, including further transactions of this sender there — the transaction still waits, until the next submission over HTTP. Over one endpoint both are sent.
* `C104_lock_violated` (Endpoints.lean): C104 does not hold for one sender's order: the locks that make a sender's submissions wait for each other are per endpoint; two submissions of one sender are processed at the same time.
* `C104_view_violated` (Endpoints.lean): C104 does not hold for the views of the pool: what waits at one endpoint is not in the other's queue, which is all that its txpool methods list.
* `C105_base_fee_violated` (BlockEnv.lean): C105 does not hold for the base fee when the minimum price changes within the block: JSON-RPC serves the price at its end, what executions before the change were told is lost.
* `C105_gas_limit_violated` (BlockEnv.lean): C105 does not hold for the gas limit: GASLIMIT is the gas left to the transaction when the execution starts, so it is the block's gas limit only by chance, and two executions of one block are told the same only if they have the same gas left.
* `C105_hash_violated` (BlockEnv.lean): C105 does not hold for block hashes: however JSON-RPC's hash is computed from the header it serves, there are chains in which BLOCKHASH gives another hash for a block than JSON-RPC.
* `C105_mix_violated` (BlockEnv.lean): C105 does not hold for the random number: JSON-RPC serves zero as the `mixHash` of every block, while contracts were told the header hash.
* `C105_origin_violated` (BlockEnv.lean): C105 does not hold for the origin within one transaction: a message that a contract `k` schedules is accepted and, when it is executed, ORIGIN is `k`, not the account `u` that started the transaction. So code called by that message finds ORIGIN = CALLER although its caller is a contract.
* `C107_early_violated` (NftHooks.lean): C107 is false of the code as it is: while the receiver of a new token is being called, the token has not the texts it is minted with but those of the token that had its number before, or none: they are written afterwards.
* `C107_ghost_violated` (NftHooks.lean): C107 is false of the code as it is: a receiver that burns the token while it is being called leaves a token that does not exist but has texts; so does every burn: texts are never removed, and whoever gets the number next shows them until its own are written.
* `C10_violated` (PrecompileCtx.lean): C10 (violated by the code through the precompile context): a transaction that creates a contract `a` and then makes the token registry create an account for a new holder `b` ends with both accounts having the same account number — for all distinct addresses and every counter value.
* `C11_violated` (Exec.lean): C11 (violated by the code): an execution that burns everything it was given and ends with an error other than out of gas (invalid opcode, stack underflow, ...) costs nothing at all, on every meter.
* `C13_violated` (Exec.lean): C13 (violated by the code): a message scheduled by an inner call that reverts is dispatched all the same when the transaction succeeds — for every contract and every message that contract may sign.
* `C143_balance_violated` (BankQuery.lean): C143 fails: balances in denoms that name no token. `Balance` validates neither the denom nor the contract it names: asked for the balance in `evm/` followed by an address without code, or by something else, it does not answer zero, and does not refuse: it panics.
* `C143_has_violated` (BankQuery.lean): C143 fails: supplies that are and are not. `HasSupply` asks whether a token is registered, `SupplyOf` asks the contract: of a token that is not registered there is a supply, but it has none.
* `C143_spelling_violated` (BankQuery.lean): C143 fails: different denoms, one coin. Two valid denoms can be answered with balances that are the same coins: sending all of one away takes the other with it.
* `C143_supply_violated` (BankQuery.lean): C143 fails: the supply of a denom that is not in use. `Balance` answers zero for it, but `SupplyOf` panics (and the caller gets an internal error).
* `C145_lost_violated` (NodeExact.lean): C145 is violated (what exactly is lost). Without gas left over, and in every static call, no answer depends on the data the contract reverted with: of any two reverts, with any data, the caller learns the same, on every path.
* `C145_rpc_violated` (RevertText.lean): C145 is violated (JSON-RPC): no failing execution is ever answered that way: every error of `eth_call` and `eth_estimateGas` has code -32000 and no data.
* `C145_static_violated` (RevertText.lean): C145 is violated (static calls): a revert in a static call (token queries, the bank's view of tokens) keeps no data, however much gas is left over.
* `C145_zero_gas_violated` (RevertText.lean): C145 is violated (no gas left): a contract that reverts having used all the gas it was given gets its data dropped, on every path.
* `C146_answer_violated` (Oracle.lean): C146 is violated (answers are mixed up): block execution at height 6 and an `eth_call` at height 5 ask for the same price at the same time; with this schedule the block execution is told the price of height 5. Both have asked the oracle correctly; it is the response object that is shared. Another node, that served no such call, is told the price of height 6: they no longer agree on the block.
* `C146_twin_violated` (Oracle.lean): C146 is violated (even by twins): two executions that ask the same on the same state get in each other's way: here the first resets the request after the second has written it, so the second asks for nothing and fails.
* `C150_file_violated` (Cli.lean): C150 fails for files as editors and tools write them: a line break at the end, or the `0x` that the argument must have, and the command refuses the file.
* `C150_help_violated` (Cli.lean): C150 fails for the documented example: `call 0x1 0x123456` is refused (as long as `0x1` is no bech32 address).
* `C150_negative_violated` (Cli.lean): C150 fails for negative values: they are neither refused by the command nor by the chain, which then moves another amount: `--value -1` asks for 2^256 - 1.
* `C151_dead_violated` (Routes.lean): C151 (violated: dead entries). The default list names messages of modules this chain does not have: a packet with one of them is refused, in every state.
* `C151_evm_violated` (Routes.lean): C151 (violated: no contracts). With the default list every packet with a message of x/evm in it — to call or to create a contract — is refused, in every state.
* `C151_wrapped_violated` (Routes.lean): C151 (violated: the list restricts nothing). Since `MsgExec` is allowed, whatever else is on the list: an interchain account that wraps its messages into a `MsgExec` of its own gets exactly what it would get if every message were allowed.
* `C152_violated` (Routes.lean): C152 (violated). The rate limits of IBC transfers are never more than none: the module that would set them is not part of the application, so a chain that starts without limits has none after any history — whoever signs, authority or interchain account, directly or through grants — and every transfer of any amount passes.
* `C154_clients_violated` (Routes.lean): C154 (clients, violated). If the default list is the wildcard, taking the localhost client out has no effect: it stays allowed.
* `C154_launch_violated` (Routes.lean): C154 (launch, violated). Launched for the denom `umin`, its fee denom is another.
* `C156_cors_violated` (NodeExact.lean): C156 is violated (cross-origin requests). Whether `enable-unsafe-cors` is set or not, a page of any site can call the HTTP server from its visitor's browser and read the answers: the policy used without it is the library's default, which allows every origin too.
* `C156_default_violated` (NodeConfig.lean): C156 (defaults, violated). An option that is set nowhere is not the documented default: without `enable` the server is off, without `queued-transaction-cap` the node does not start, and without `apis` nothing is answered.
* `C156_filter_timeout_violated` (NodeConfig.lean): C156 (negative filter timeout, violated). A node with a negative filter timeout dies as soon as one of its two servers is up, even if no namespace is served at all; with any other it comes up, each server as configured.
* `C156_list_violated` (NodeConfig.lean): C156 (lists, violated). Names given as a list of app.toml are all ignored, and a name after a blank is.
* `C156_missing_violated` (NodeConfig.lean): C156 (namespaces, violated). The default configuration enables `personal`, `debug` and `miner`, of which no method is answered, without an error.
* `C156_mistyped_switch_violated` (NodeConfig.lean): C156 (mistyped switches and times, violated). An `enable` that cannot be read switches the server off, whatever the default; a timeout that cannot be read, or that is set nowhere, is none at all (`http.Server` reads 0 as no limit), although the default is ten seconds.
* `C156_mistyped_violated` (NodeConfig.lean): C156 (mistyped, violated). A limit that cannot be read is not reported and is not the default: every batch is answered, every connection accepted. The options of x/evm take their defaults, silently.
* `C156_switch_number_violated` (NodeConfig.lean): C156 (a switch for a number, violated). `true` where a number belongs is the number one, and `false` is zero, which for the limits of the server means none.
* `C156_text_violated` (NodeConfig.lean): C156 (text options that are no text, violated). An address or a list of namespaces that is given as a number or as `true` or `false` is no error: it is taken as what one would write, so that a node whose `apis` is a switch or a number serves nothing.
* `C157_format_violated` (NodeConfig.lean): C157 (format, violated). No line is as documented: the numbers are hexadecimal.
* `C157_highest_violated` (NodeConfig.lean): C157 (highest block, violated). A node that is behind by any number of blocks says that it is at the highest block, and that as many blocks as it has are still to be indexed.
* `C159_disabled_violated` (Lanes.lean): C159 (mempool switched off, violated). With a negative `mempool.max-txs`, cosmos-sdk's way to leave the mempool to CometBFT, every ordinary transaction is accepted and forgotten: whatever was offered, it is in no block if lanes propose only what they keep.
* `C159_idle_violated` (Lanes.lean): C159 (idle space, violated). With no oracle updates, bids or free transactions, at least three tenths of every block stay empty, however many transactions wait.
* `C159_large_violated` (Lanes.lean): C159 (large transactions, violated). A transaction of more than seven tenths of the gas or the bytes of a block is admitted to the mempool and can never be in a proposed block, whatever the lanes do.
* `C159_small_lane_violated` (Lanes.lean): C159 (oracle updates and free transactions, violated). An oracle update, a bid or a free transaction of more than a tenth of a block is kept in its lane only, and is in no block if lanes propose only what they keep.
* `C160_gap_violated` (Startup.lean): C160 (gap, violated). The blocks that a node finalizes while the other indexer is disabled and JSON-RPC is off are never in its index, whatever it is configured to afterwards.
* `C160_start_violated` (Startup.lean): C160 (start, violated). With the other indexer disabled a node with a JSON-RPC server does not start, whatever namespaces are configured.
* `C161_two_denoms_violated` (Genesis.lean): C161 (violated). Any valid genesis file can be changed into another valid one, from which the chain starts with two denoms for one contract (of which one denom's contract leads to the other denom) and without a wrapper.
* `C162_oracle_violated` (NodesOracle.lean): C162 is violated by blocks that use the oracle: two nodes start from the same state and execute the same block; one of them serves an `eth_call` to the oracle meanwhile. The contract in the block is told another price there and stores another value: the nodes no longer agree, and the one that served the query halts.
* `C163_violated` (Refunds.lean): C163 fails: the price of the write that ran out of gas is not undone with the frame, the counter no longer covers the cleared slot, and the write of the outer frame panics ("Refund counter below zero"). The whole transaction is lost although every contract followed the rules.
* `C164_exact_violated` (Callbacks.lean): C164 (violated, exactly). `n` nested frames write, one after the other; then `k` calls of the innermost fail, whatever they tried to do. What the frames go on with is the store after the outermost `n - (k - 1)` frames: each failing call but the first has undone one more of the frames that are still waiting. And what is committed at the end is what the outermost `n - k` frames wrote: each failing call costs one frame all it did. (By the specification nothing of this is lost, for every `k`.)
* `C164_lock_violated` (Callbacks.lean): C164 (violated, locks). A contract sets a lock and calls a contract that makes three failing calls: while the contract is still waiting, the lock is as open as it was before the transaction, so it can be entered again. Whatever the lock is, wherever it is kept, and whatever the callee wrote besides.
* `C164_money_violated` (Callbacks.lean): C164 (violated, money). A ledger contract debits `a`, calls a contract that makes `k` failing calls (and writes what it likes, but not these balances), and credits `b`. Committed is: for no failing call, the payment; for one, the debit without the credit; for two, nothing; for three or more, the credit without the debit. So the callee decides whether money is destroyed or made.
* `C165_height_violated` (InitCmd.lean): C165 is violated (the first height). The code reads `--initial-height`, but asking for it is refused, whatever it says; and no genesis the command writes starts anywhere but at block 1.
* `C165_refused_violated` (InitCmd.lean): C165 is violated (a refused command changes the home). `init --recover` in a home that has a genesis, without `--overwrite`, is refused, but only after the validator's key has been replaced by that of the mnemonic. If it is the same key, the validator forgets what it signed, and may sign those heights again.
* `C166_both_violated` (Stack.lean): C166 does not hold: a packet whose memo asks both for a contract call and for forwarding, each of which alone would be carried out, is neither acknowledged nor forwarded nor refused: delivering it panics, every time, until it times out on the chain it came from.
* `C167_dangling_violated` (Wiring.lean): C167 (which references are unusable, exactly): of all keepers and middlewares built, the forwarding keeper alone holds something it cannot call, the transfer keeper.
* `C167_halts_violated` (Wiring.lean): C167 does not hold: a plain transfer of any coins to a forwarding account with an open channel stops the chain at the end of the block, whatever else happened in it.
* `C168_pending_violated` (Follow.lean): C168 (violated: what is pending is not found). As long as a transaction waits, in the pool or in the queue, asking for it by hash is answered as if it did not exist, although (with at most 30 transactions in the pool) the node lists it as pending.
* `C18_violated_access` (TxUtils.lean): C18 is violated: the access list of a legacy transaction is not signed.
* `C18_violated_fee` (TxUtils.lean): C18 is violated: the fee is not signed. Any accepted Ethereum-signed transaction stays accepted, under the same signature, after anybody changes its fee to any amount (including zero, or the sender's whole balance).
* `C18_violated_message` (TxUtils.lean): C18 is violated: the message is not signed. Any accepted Ethereum-signed transaction that deploys empty code with no value stays accepted after its message is replaced by any message of a non-EVM module (a bank send, a governance vote, ...).
* `C18_violated_negative` (TxUtils.lean): C18 is violated for negative amounts: nothing is signed. If the fee cap in the memo of an accepted Ethereum-signed transaction is negative, its signature is good for any transaction of that account: any message (EVM or not), any gas limit, any fee, and any sequence number, now and later.
* `C18_violated_value` (TxUtils.lean): C18 is violated for fee tokens with more than 18 decimals: the amount is not fully signed.
* `C20_violated_failed` (SigAnte.lean): C20 is violated for failed transactions if BaseApp drops post-handler writes (as cosmos-sdk does): the sequence of every EVM sender of a failed transaction is unchanged, so the same signed transaction is valid again — for every transaction in which each account is written one way.
* `C20_violated_hook` (SigAnte.lean): C20 is violated in the hook of a deposit, whatever BaseApp does: there is no post handler, so the sequence of every EVM sender of a failed hook is unchanged, and the signed hook is valid again: anybody can deposit with it once more.
* `C20_violated_long` (SigAnte.lean): C20 is violated for senders with long addresses: a successful contract creation by an account whose EVM identity is a different (shorthand) account leaves the signer's sequence unchanged, whatever BaseApp does: the transaction can be replayed.
* `C20_violated_rewind` (SigAnte.lean): C20 is violated: sequences can be wound back (BaseApp dropping post-handler writes, as cosmos-sdk does). An account that can be written in two ways (bech32 has an upper-case and a lower-case form) goes back by one with every failed transaction whose two calls name their sender in the two ways — each of them signed by it alone and let through — as far as it likes, and nobody else's sequence moves. Every transaction it ever signed is then valid again, one after another.
* `C21_violated` (Denom.lean): C21 is violated: in every reachable state, every registered token (denom `d`, contract `a`) also answers to `evm/` followed by its address: two different denoms for one contract.
* `C22_violated` (Denom.lean): C22 is violated: for every contract, the spelling with a `0x` after `evm/` is accepted and denotes the same contract, but is never the name the chain gives it (other letter case behaves the same).
* `C25_violated` (Ledger.lean): C25 fails for a denom `evm/<address without code>`: the send of any amount succeeds although the sender holds nothing, and nothing is moved. (The hypothesis of `C25_partial` cannot be dropped.)
* `C26_violated` (Ledger.lean): C26 fails when a third-party coin is listed with another coin: the whole list is sent to the community pool and the other coin is burned on top. Burning (7 of a third-party token, 30 uinit) takes 60 uinit.
* `C28_violated` (Registry.lean): C28 fails when a contract registers itself after it has holders: nothing enters the existing holders into the listing. Here bob holds 42 of a registered token and his listing is empty.
* `C30_violated` (Identity.lean): C30 fails between a 20-byte address and a longer one: a 20-byte address whose account has no public key and sequence zero (an interchain account, an account acting through an authorization) acts as signer and afterwards a longer address with these last 20 bytes is accepted as signer: both have the same EVM address, and the account is replaced.
* `C31_shrink_violated` (Params.lean): C31 (shrinking the retention leaves older hashes behind, unreachable for contracts). After a reduction from 1000 to 256, more than 256 hashes stay recorded.
* `C31_violated` (Params.lean): C31 fails as stated: what is served for a block is not that block's header hash but its successor's (the header hash the application sees while processing block `h` is filed under `h - 1`).
* `C31_zero_height_violated` (Params.lean): C31 (zero height, violated). An export for height zero (`--for-zero-height`) keeps the old chain's hashes: the chain started from it has hashes on record, and in its own export, for blocks it does not have, until it gets there. No contract sees them.
* `C33_spelling_violated` (ParamsExact.lean): C33 is violated (an address has several spellings: Bech32 is valid in lower and in upper case). The list is compared as text: a list that names a publisher in one spelling passes validation, and refuses every creation by that publisher in any other.
* `C35_crash_violated` (HookGas.lean): C35 is violated (a contract that panics the machine): then the delivery of its packet is aborted as well, and nothing is acknowledged.
* `C35_gas_violated` (HookGas.lean): C35 is violated (a contract that uses all the gas): the call fails, but no acknowledgement is written, of an error or otherwise: what is left of the relayer's gas does not pay for storing one, whatever the gas limit. The packet cannot be delivered, by any relayer, and its sender has to wait for the timeout.
* `C36_batch_violated` (HookGas.lean): C36 (batches, violated). A callback whose contract runs out of gas leaves none for the rest of the relayer's transaction: whatever the gas limit, every message after it that uses any gas at all fails, and with it the whole transaction, so that acknowledgements of others in the same transaction are not processed either.
* `C36_blocked_violated` (HookGas.lean): C36 (blocked, violated). A contract that schedules a message and returns with less gas than the message takes aborts, by its callback, the processing of its packet: whatever the gas limit, as long as it pays for the contract's own work, and however much the relayer pays, the acknowledgement or timeout, and with it the refund of the transfer, does not happen.
* `C36_crash_violated` (HookGas.lean): C36 (crashes, violated). A contract that panics the machine aborts, by its callback, the processing of its packet: whatever the gas limit, as long as it pays for getting there. (`C163_violated` is such a contract.)
* `C37_delete_violated` (IndexStore.lean): C37 does not hold for deletes: a key that was written, and whose cache entry was dropped since, cannot be deleted; the delete answers with an error and the key keeps its value.
* `C37_race_violated` (IndexStore.lean): C37 does not hold for concurrent readers: a reader that missed the cache and is overtaken by a write leaves the old value in the cache, and from then on reads return the old value.
* `C38_abort_violated` (Indexer.lean): C38 does not hold: one transaction that cannot be converted leaves its whole block out of the index, with the transactions that executed.
* `C38_duplicate_violated` (Indexer.lean): C38 does not hold when a transaction is included twice: block 1 then lists a transaction that says it is in block 2.
* `C38_violated` (Indexer.lean): C38 does not hold: the first transaction of a block has index 1, and there is none at index 0.
* `C39_event_violated` (Indexer.lean): C39 does not hold: the log sent to subscribers and the log served name different transaction indices.
* `C39_violated` (Indexer.lean): C39 does not hold: the logs of different transactions of a block have the same number.
* `C40_gap_violated` (LogFilter.lean): C40 does not hold when a block of the range could not be indexed: the matching logs of all later blocks are left out, without an error.
* `C40_lagging_violated` (LogFilter.lean): C40 does not hold while the newest block is not indexed yet: any range, also one of old blocks, has no logs.
* `C40_zero_hash_violated` (LogFilter.lean): C40 does not hold for the zero hash, which is the hash of no block: block 1 is searched.
* `C41_evicted_violated` (SendQueue.lean): C41 does not hold when the queue is full: the waiting transaction of one sender, which was answered without an error, is dropped by a submission of another sender, and is not broadcast when the gap is filled.
* `C42_new_filter_violated` (Filters.lean): C42 does not hold for block filters (and pending transaction filters): one that was just created is removed by the next tick, without any time having passed.
* `C42_order_violated` (Filters.lean): C42 does not hold for the order of blocks: when two blocks are finalized before the event loop takes the events of the first, a client can get the second block before the first.
* `C42_unpolled_violated` (Filters.lean): The same in every state: a filter for blocks or pending transactions that was not polled yet does not survive a tick.
* `C43_base_fee_violated` (FeeHistory.lean): C43 does not hold for base fees: they depend on the order in which the workers finish. The chain's base fee is fixed, so that the one computed from block 2 (875) is not the one of block 3 (1000); the answer has one or the other.
* `C43_block_zero_violated` (FeeHistory.lean): C43 does not hold for requests that reach beyond the first block: block 0, which does not exist on this chain (blocks are numbered from 1), is reported with the base fee and the ratio of block 1.
* `C44_blocked_violated` (Bank.lean): C44 fails: a blocked module is paid through a longer address. The block list is keyed by the full address, but the ledger by its last 20 bytes: a `MsgSend` to a 32-byte address with the blocked module's 20 bytes at its end is accepted and credits the blocked module's balance (as long as that module's account has not been created).
* `C44_delegate_violated` (Bank.lean): C44 fails: delegations bypass the restrictions. `DelegateCoins` (and `UndelegateCoins`) transfer in the ledger directly: they succeed although the restriction in force refuses every transfer.
* `C44_redirect_violated` (Bank.lean): C44 fails: a restriction may name a blocked recipient. Only the recipient of the message is compared with the block list, not the one the restriction chose, who is credited.
* `C45_violated` (Fees.lean): C45 (violated by the code): a transaction paying its fee in the fee denom passes whatever its remaining ante steps (signature checks included) cost, and is charged nothing for them.
* `C47_violated` (Exec.lean): C47 (violated by the code): for a call message the access list has no effect whatever: every slot is cold, and a listed address is warm only if it is the sender, the target, a precompile or the zero address.
* `C48_alias_violated` (Nft.lean): C48, defect: other names. A class has further names: every spelling of `evm/` and the address of its contract resolves to the same contract, so that one token can be handled under two class ids.
* `C48_evm_class_violated` (Nft.lean): C48, defect: `evm/` classes. Creating a class whose id has the form `evm/…` deploys a contract that the id does not name, puts the URI on a foreign address, and makes the export of the chain's state panic.
* `C48_ids_violated` (Nft.lean): C48, defect: ids. Token ids are not one-to-one with tokens: signs, leading zeros, multiples of 2^256 and negative numbers give other names for the same token.
* `C48_nocode_violated` (Nft.lean): C48, defect: no contract. "changes ownership of exactly those tokens or fails" is false for a class id `evm/…` of an address without a contract: mints, transfers and burns succeed and do nothing.
* `C49_drain_violated` (WrapSend.lean): C49 is violated (the locked tokens can be taken). In every state, reachable or not: an account that can wrap any amount of any token at all can, by the text it passes for the receiver, make the wrapper send any amount `n` of any token `o` it holds - the tokens it has locked for others - to any receiver on the other chain, over any channel, instead of the wrapped tokens.
* `C49_injection_violated` (WrapSend.lean): C49 is violated (from a reachable state). bob holds 100 wrapped tokens, covered by 100 locked ones, and can redeem them. carol wraps 5 units of a token she has just made. Her transaction succeeds; it sends the 100 locked tokens to the other chain, to be hers there; the wrapper holds nothing for bob's tokens, and he can redeem none of them.
* `C49_nested_violated` (Wrapper.lean): C49, defect: nesting. If wrapped tokens may be wrapped again, the wrapper can become insolvent: wrapped tokens that it has locked are the same as those its own pending messages send out, and a message recorded by a reverted frame (C13) is dispatched all the same.
* `C49_refund_violated` (Wrapper.lean): C49, defect: refund. There is a history with a wrap whose IBC transfer can fail, and yet its refund reverts, though the wrapper still holds both the minted tokens and the locked ones.
* `C51_balance_violated` (BlockTag.lean): The balance at a past block is that of today's fee token, not of the fee token of that block.
* `C51_earliest_count_violated` (BlockTag.lean): The same for every chain with more than one block: the transaction count at `earliest` is the one at the head.
* `C51_earliest_violated` (BlockTag.lean): `earliest` is block 1 for the balance and the code, and the latest block for the transaction count.
* `C51_estimate_violated` (BlockTag.lean): Gas estimation ignores the block.
* `C51_future_violated` (BlockTag.lean): A block that does not exist yet: the state methods answer with the latest state, the block methods say `null`.
* `C51_index_violated` (BlockTag.lean): `latest` and every other name never find a transaction by its index, on any node, whatever the blocks contain: the number of the tag is used as a height.
* `C51_race_violated` (BlockTag.lean): The block a user names by number is not the block answered about, if it is the head when the request arrives and a block is committed before the state is opened.
* `C51_unknown_hash_violated` (BlockTag.lean): A hash of no block: an error from most methods, `null` from two, never the same answer.
* `C52_violated` (TxUtils.lean): C52 is violated for bech32 strings of other lengths: they are not rejected, and two different accounts (one 32 bytes long) denote the same contract.
* `C55_violated` (CacheStack.lean): C55 (violated by the code): after two caught reverting inner calls, a plain write becomes visible as the "committed" value during the same execution.
* `C56_beside_violated` (PrecompileMarks.lean): C56 (violated), for every transaction without failing calls. Two things go on side by side: the precompiles work on the store, one after the other, and see nothing of what the contracts have written; and what the contracts write is laid over the store at the end, over whatever the precompiles have written there in the meantime — also earlier writes over later ones.
* `C56_kept_violated` (PrecompileMarks.lean): C56 (violated), reverts. No precompile call is ever undone: in every transaction with at most one failing call, at any depth, the store ends up with the effects of all precompile calls, those in the failing call included, with the contracts' writes over it; and if the transaction as a whole fails, with the effects of all of them alone.
* `C56_violated_revert` (PrecompileCtx.lean): C56 (violated by the code): whatever a precompile writes inside a top-level call that fails stays in the store, for every computation and every initial store.
* `C56_violated_stale` (PrecompileCtx.lean): C56 (violated by the code): a precompile does not see what the calling frame wrote before: it computes on the store as it was when the execution started, whatever `w` the frame wrote.
* `C57_violated` (Fees.lean): C57 (violated by the code): with 247 decimals or more the 8-bit addition wraps: a token with 250 decimals and a price of one unit per gas is reported as 10^24 wei instead of 0.
* `C58_amount_violated` (HooksNft.lean): C58 does not hold for an amount written with a leading zero, which a counterparty chain may send: of `010` the transfer application delivers 8 (base 8), while the hook approves 10.
* `C58_bech_violated` (HooksExact.lean): C58 fails for every Bech32 address of this chain (they begin with `init1`): it is the zero address that is approved, so no contract called by its Bech32 address can spend what it was sent, unless it is the contract at the zero address.
* `C58_evm_violated` (Hooks.lean): C58 does not hold for a returning ERC20 token native to this chain (denom `evm/…`): its contract is found by the naming rule, not in the collection the hook reads, so every hook packet with it is refused.
* `C58_nft_evm_violated` (HooksNft.lean): C58 does not hold for the NFTs of a contract deployed on this chain: such a contract's class (`evm/…`) is not in the table the hook consults (only classes the chain created itself are), so a packet returning at least one such token with a hook message is always refused, although the class has a contract.
* `C58_violated` (Hooks.lean): C58 does not hold for a contract named by its Bech32 address: the requested call goes through, but the allowance went to another address (`common.HexToAddress` of the Bech32 string), not to the contract called.
* `C59_violated` (Indexer.lean): C59 does not hold: if the node dies between the application's commit and the flush, the committed block is not in the index, and never will be, whatever happens later.
* `C60_race_violated` (LockTable.lean): C60 does not hold as far as data races are concerned: `releaseAccMut` reads the map without holding `b.mut`, while a goroutine of another sender, which holds it, inserts.
* `C61_block_violated` (RpcTx.lean): C61: and with it every transaction of its block: reading the block fails.
* `C61_huge_tip_violated` (RpcTx.lean): C61 does not hold for numbers above 256 bits: such a transaction is accepted from eth_sendRawTransaction, is converted, passes the signature check and is indexed, but can not be read back.
* `C62_violated` (Indexer.lean): C62 does not hold: after such a block the next header names no parent.
* `C63_replaced_violated` (SendQueue.lean): C63 does not hold: a second transaction with the same nonce silently replaces the waiting one; both are answered without an error.
* `C63_violated` (SendQueue.lean): C63 does not hold: nonce 1 waits in the queue; nonce 0 arrives and is accepted by the node, but the answer is an error, because the transaction with nonce 1, sent after it, is refused. The refused transaction, answered without an error before, is lost.
* `C64_notified_violated` (TxPool.lean): C64 does not hold for transactions the mempool refuses: watchers are told about them although they are not pending.
* `C64_unchecked_violated` (TxPool.lean): Without the signature check it would not: a transaction of an unknown Ethereum type is refused only when someone watches.
* `C65_limit_general_violated` (TxPool.lean): C65: for every pool, what comes after the first 100 (30) has no effect.
* `C65_limit_violated` (TxPool.lean): C65 does not hold for more than 100 pending transactions: the others are left out.
* `C65_same_nonce_violated` (TxPool.lean): C65 does not hold for equal nonces: the later transaction (with other gas) hides the earlier one.
* `C65_status_violated` (TxPool.lean): C65 does not hold for the counts: they include transactions that are not Ethereum transactions.
* `C65_unconvertible_violated` (TxPool.lean): C65: a transaction that can not be converted makes the whole call fail (such a transaction does not pass the signature check, see `checked_converts`, but the conversion uses the fee denom and decimals of now).
* `C66_doubles_violated` (BankGenesis.lean): C66 (violated, always): a restart doubles every balance. Whatever the chain: if its export, that lists everybody's tokens, can be imported at all, then on the restarted chain every account has twice what it had of every token.
* `C66_import_violated` (BankGenesis.lean): C66 fails: some exports cannot be imported at all. An exported genesis with a balance in a third-party token makes the import panic (the bank refuses to mint `evm/` coins); so does one with a registered token of supply zero (the export lists it, the sum of balances does not).
* `C66_restart_violated` (BankGenesis.lean): C66 fails: a restart doubles every balance. The EVM module's import already restores the contracts with all their balances; the bank's import then mints the exported balances again on top.
* `C66_zero_violated` (BankGenesis.lean): The second half of `C66_import_violated`: a token of supply zero.
* `C67_balances_violated` (BankGenesis.lean): C67 fails: zero balances are listed. A token alice once held and spent stays in her paginated balances, with amount zero, although the bank's other listing omits it.
* `C67_iterate_violated` (BankGenesis.lean): C67 fails: the iteration does not halt. The documentation says that the iteration over all balances halts when the callback returns true; it only goes on to the next account.
* `C67_metadata_violated` (BankGenesis.lean): C67 fails: the two metadata queries differ. The query-string variant is documented as identical, but only the other one falls back to asking the token contract.
* `C68_negative_violated` (Query.lean): The gRPC query takes amounts modulo 2^256: a negative amount asks for an enormous payment instead of being refused.
* `C68_value_violated` (Query.lean): C68 fails: the amount is ignored. A contract that requires payment answers an error to `eth_call`, although the same message with its amount succeeds.
* `C68_zero_address_violated` (Query.lean): C68 fails: a call to the zero address is executed as a contract creation with the data as init code.
* `C69_race_violated` (Query.lean): C69 fails: two requests at the same time (a block executing while an `eth_call` is served) can get each other's question: with this schedule the first asks what the second's text says.
* `C69_residue_violated` (Query.lean): C69 fails: a request that cannot be read (an unknown field) leaves its known fields behind, and the next request that does not set them asks for them. Since `eth_call`s use the same object, a node that served such a call executes a block differently from one that did not.
* `C70_constructor_hash_violated` (Eth.lean): C70, violated part: in Ethereum EXTCODEHASH of an existing account without code is the hash of the empty string. Here a contract under construction answers zero.
* `C72_blocked_violated` (Value.lean): C72 fails for blocked payees: the whole transaction is aborted. A contract that pays a list of addresses and handles the failure of each payment cannot do so: if one of them is a blocked module account, the transaction aborts, with everything the contract did before.
* `C73_blocked_violated` (Value.lean): C73 fails: a self-destruct pays blocked accounts. No transfer to a blocked account succeeds, but naming it as beneficiary of a self-destruct credits it.
* `C73_custom_violated` (Value.lean): C73 fails if the fee token is somebody's own token. A genesis state may name any contract as fee denom (an update may not, C85); with one without `sudoBurn`, a contract that holds any of it cannot be destroyed: the transaction aborts.
* `C74_violated` (Value.lean): C74 fails for any other decimals. With fewer than 18 decimals every account that has anything at all has a different balance for contracts than for wallets, and every value a transaction carries is different. (With more than 18 the same holds for every value.)
* `C76_fraction_violated` (GasPrice.lean): C76 fails for prices below one wei (a token with 18 decimals and a price of half a unit): the quoted price is 0, and every transaction that offers it is refused.
* `C76_other_denom_violated` (GasPrice.lean): C76 fails when prices are configured in other denoms only: the quoted price is 0, and an Ethereum transaction is refused whatever it offers.
* `C77_no_contract_violated` (GasPrice.lean): C77 fails without a fee contract: the gas price is 0 while the base fee is computed as if the token had no decimals.
* `C77_other_denom_violated` (GasPrice.lean): C77 fails for a transaction that pays in another accepted denom: it is taken, and contracts see a gas price of 0 under a base fee of 15 gwei.
* `C79_access_violated` (AccessText.lean): C79, defect: a storage key that is not a number is not refused. What stands before the first bad pair of digits is taken as the key, so that a typing error warms a different slot: `0x01zz…` is slot 1; and of a key with too many digits the first are dropped.
* `C79_negative_all_violated` (Messages.lean): The general form: every negative amount down to -(2^256 - 1) becomes a positive one.
* `C79_negative_violated` (Messages.lean): C79 fails for negative amounts: they are not refused. A call with the amount -(2^256 - 1) pays 1.
* `C81_violated_again` (Pipeline.lean): C81 (violated by the code, as cosmos-sdk drops the post handler's writes with the messages'): a signed transaction whose EVM messages fail can be included over and over, and the payer is charged its whole fee each time, as long as the balance lasts: signing once is enough to lose everything.
* `C81_violated_back` (Pipeline.lean): C81 (violated by the code): a failed transaction whose EVM messages name a signer in `k` different ways (an address may be written in lower or in upper case) sets the signer's sequence BACK by `k - 1`.
* `C81_violated_rewind` (Pipeline.lean): C81 (violated by the code): a transaction that succeeded is executed a second time after a failed transaction that names its sender in two ways.
* `C83_honest_violated` (WrapMsg.lean): C83 is false of the code as it is: no honest call of `wrap` ever dispatches a transfer, because the text contains the member `async_callback`, which `MsgTransfer` does not have, and the decoder rejects unknown members.
* `C83_injection_violated` (WrapMsg.lean): C83 is false of the code as it is: whoever calls `wrap` (for any token, any amount) with a suitable `receiver` text makes the wrapper send any amount `n` of any denom `d` it holds - the locked origin tokens of everybody, say - to any receiver `r`, with any timeout and memo. The decoder accepts this text, and its sender is the wrapper.
* `C84_free_violated` (AnteSigs.lean): C84 (violated: checks for nothing). A transaction that pays its fee in the fee denom has all its signatures checked (those of supported keys) whatever they cost and whatever gas it has left, even none, and its meter is charged nothing for them.
* `C84_hook_violated` (SigGas.lean): C84 is false of the code as it is: a transaction in the hook of a deposit is refused whenever an Ethereum wallet is among its signers, whatever gas is left: app/ante/ante.go:112 uses cosmos-sdk's gas consumer, which does not know the key type.
* `C85_zero_violated` (FeeDenom.lean): C85 is false of the code as it is: the denom of the zero address passes the test, whatever the tokens of the chain (minting at an account without code does nothing, successfully, and the decimals of the zero address are not asked). With it every call that carries value is refused from then on.
* `C86_access_list_violated` (Memo.lean): C86 does not hold for the README's form of the access list (an object): every such packet is refused, whatever else it says.
* `C86_directed_violated` (Memo.lean): C86 does not hold for a memo that is directed to the hook but has no message in it (the value under `evm` is not an object, or an object without `message`): the README says such a packet is refused, but it is handled as a plain transfer.
* `C86_documented_violated` (Memo.lean): C86 does not hold for the format of the README (`contract_addr` in place of `contract_address`): no callback is made. The empty text is no Bech32 address.
* `C86_large_id_violated` (Memo.lean): C86 does not hold for the largest 1024 ids: no callback is made.
* `C86_odd_id_violated` (Memo.lean): C86 does not hold for odd ids above 2^53: the memo is decoded into an `interface{}`, where numbers are float64, so whatever callback is made carries another (even) id.
* `C86_wrong_id_violated` (Memo.lean): C86 on a chain: with id 7 the contract is told 7; with id 9007199254740993 (odd, above 2^53) it is told 9007199254740992, the id of another transfer.
* `C87_simulation_violated` (Nested.lean): C87 does not hold in simulations (`eth_estimateGas`, the simulation endpoint): each nested execution is given the whole simulation gas limit again and the gas meter is the infinite one (cosmos-sdk), so a contract that schedules a call of itself is still running at every depth up to 2^64 / 30000, six hundred million million, whatever the limit. (A Go program that nests so deeply is ended by the runtime: anybody who may call the endpoint can stop the node.) With a gas limit the same contract ends.
* `C88_blocked_violated` (Listing.lean): C88 does not hold as to availability: one token whose `balanceOf` does not end makes every listing (of all balances, and of the page it is on) fail, with any gas limit, wherever it is in the list. Any registered token can put itself into the listing of any account (erc20_registry `register_erc20_store`), and with the default parameters any contract can register itself (C29).
* `C89_registry_violated` (ModuleAcct.lean): C89 is violated: any registered token can take a module's address. A registered token contract (with the default parameters any contract can register itself, C29) calls `register_erc20_store` for the address of a module whose account does not exist yet: an ordinary account is created there. No block list is consulted, and no permission of the module is needed. From then on every payment to the module and every mint or burn by it panics, whatever happens later.
* `C89_send_violated` (ModuleAcct.lean): C89 is violated: a transfer takes a module's address. An accepted `MsgSend` whose recipient is a longer address ending in the module's 20 bytes (which the block list, keyed by whole addresses, does not contain), of a coin the module does not hold yet, creates an ordinary account at the address of a module whose account does not exist yet; from then on every payment to the module panics, whatever happens later.
* `C90_destroyed_violated` (Export.lean): C90 fails: the tokens of a destroyed contract are not listed. A contract that received tokens and is destroyed in the execution that created it loses its account, but not its tokens: the export lists less than the supply.
* `C90_panic_violated` (Export.lean): C90 is violated: anybody can make the export impossible. A new user X receives a coin, or a dust of one, at any longer address that ends in X's 20 bytes (any accepted `MsgSend`), and then makes his first transaction, so that X's sequence is no longer zero. From that moment on the export panics: the longer address has an account, but no EVM address any more.
* `C90_twice_violated` (Export.lean): C90 fails: coins of users with longer addresses are listed twice. Such a user has two accounts, one under the longer address and the shorthand one under its last 20 bytes; the export lists the same balance under both, so that the exported balances add up to twice the exported supply.
* `C91_large_violated` (Estimate.lean): C91 does not hold for a program that needs more than the simulation gas limit: it has no estimate, although it runs with a large enough gas limit.
* `C91_list_violated` (Estimate.lean): C91 does not hold for a transaction with a long access list: `eth_estimateGas` does not look at the list, whose bytes the transaction pays for (at least 46 for every address and 68 for every storage key). Whatever program was estimated, a list long enough makes the estimate too small.
* `C91_refund_violated` (Estimate.lean): C91 does not hold for a program that earns a large refund: whatever the simulated transaction and the real one cost beside the machine, clearing enough storage slots makes the estimate too small, if the simulation limit lets the program be estimated at all. The refund is taken off the answer, but the transaction needs that gas while it runs.
* `C92_error_violated` (Halt.lean): C92 does not hold (second way): an Ethereum signature over the creation of an empty contract also authorizes any message of another module (`C18_violated_message`). If that transaction succeeds, the indexer finds a response that is not a creation's and fails: with `StopNodeOnErr` obeyed no node gets past the block, otherwise the block is missing from the index. It passes every check of the ante handler, and watched nodes take it as well.
* `C92_panic_violated` (Halt.lean): C92 does not hold: anybody with an account that has sent a transaction before can stop every node of the chain for good. His transaction, of any message, leaves out the public key (which is optional, the account has it) and has a memo that reads as an Ethereum transaction's metadata. If its ordinary signature verifies, it passes the signature check and is taken into the mempool of a node nobody watches; the block that contains it (wherever in the block, after transactions that are indexed) makes the indexer of every node panic before the block is committed: after no history of blocks and restarts does any node get past it.
* `C93_failed_violated` (Cost.lean): C93 does not hold: a transaction that fails pays for its whole gas limit, whatever gas its receipt reports.
* `C93_header_violated` (Cost.lean): C93 does not hold: one Cosmos transaction that used gas makes the header's gas used exceed the receipts'.
* `C93_overrun_violated` (Cost.lean): C93 does not hold: a transaction that runs out of gas outside the machine is reported to have used more gas than its limit.
* `C93_rejected_violated` (Cost.lean): C93 does not hold: a transaction of a block that the ante handler rejects there (its sender spent the money in an earlier transaction of the block, say) pays nothing, but has a receipt with the gas that was counted until then.
* `C93_unused_violated` (Cost.lean): C93 does not hold: with the default refund ratio (one half) or a smaller one a successful transaction pays, beyond what its receipt says, at least half the price of the gas it did not use.
* `C94_erc20_violated` (Answers.lean): C94 does not hold: `to_erc20` also names a contract for denoms of which there is no token: any text `evm/` with 40 hexadecimal digits, whether or not there is anything at that address.
* `C94_long_violated` (Answers.lean): C94 does not hold for longer addresses: they have an EVM address, which is theirs from their first message on, but `to_evm_address` fails for every one of them.
* `C94_module_violated` (Answers.lean): C94 does not hold: before a module's account exists (it is made when the module first uses it), `is_module_address` denies that its address is a module's, also if the bank already blocks it.
* `C94_self_violated` (Answers.lean): C94 does not hold for callers that stand for a longer address: the text `to_cosmos_address` gives for themselves is not an address they may sign for.
* `C94_store_violated` (Answers.lean): C94 does not hold: `register_erc20_store` answers `true` to a contract that is not a registered token, and registers nothing.
* `C95_offset_violated` (Paging.lean): C95 fails for paging by offset. A client that counts on instead of following the next keys can see a token twice when the account receives a new one between its requests.
* `C95_order_violated` (Paging.lean): C95 fails: the listing is not in order. Each page is sorted by denom, but the pages follow the addresses of the contracts; the concatenated pages are not a valid list of coins.
* `C95_supply_violated` (Paging.lean): C95 fails: zero supplies are listed, although the listing is documented as ignoring zero coins.
* `C95_zero_violated` (Paging.lean): C95 fails: pages of nothing. A page of balances can consist of zero amounts only, with the coins the account does hold on later pages: here bob spent all of one token, and his first page shows only it.
* `C96_decimals_violated` (TokenMeta.lean): C96 fails: decimals are ignored. For every contract that says it has decimals, whatever its denom, the metadata say that one displayed unit is one base unit, and no unit has the contract's exponent: a token with 18 decimals is displayed 10^18 times too large.
* `C96_display_violated` (TokenMeta.lean): C96 fails: one name for two units. Amounts of `uinit` and of `minit`, two different tokens, are both displayed in `init`: once it is a million base units, once a thousand.
* `C96_valid_violated` (TokenMeta.lean): C96 fails: invalid metadata. For the valid denom `u1x` the chain serves metadata it would itself refuse: they say that amounts are displayed in `1x`, which is no denom.

## 5. What is modelled and what is not

Modelled (file → Lean module under `Model/`):

| code | module |
| --- | --- |
| `x/evm/state/{statedb,snapshot,keys}.go` | `CacheStack` (contexts and snapshots), `World` (accounts, code, storage, refunds, access list, logs, self-destruct), `Frames` (the two together); `Spec/Eth` is the abstract state they refine |
| `x/evm/keeper/context.go`, `context_utils.go`, `msg_server.go`, `precompiles.go` | `Exec`, `Frames`, `Params`, `PrecompileCtx`, `Fees` |
| `x/evm/keeper/{erc20,erc20_stores}.go`, `x/evm/types/{denom,decimals,address}.go`, `app/keepers/community_pool.go` | `Denom`, `Tokens`, `Fees`, `Text`, `Bytes` |
| `x/evm/contracts/{erc20,initia_erc20,erc20_acl,erc20_factory,ownable}` (Solidity) | `Tokens` |
| `x/evm/keeper/context.go` (`CanTransfer`, `Transfer`), `x/evm/state/statedb.go` (balances, self-destruct) on the real token ledger | `Value` |
| `x/evm/contracts/erc20_wrapper` (Solidity) | `Wrapper` |
| `x/evm/keeper/erc721.go`, `x/evm/types/collection.go`, `x/evm/contracts/{erc721,ics721_erc721}` (Solidity) | `Nft` |
| `app/ibc-hooks/*` | `Hooks` |
| `x/evm/keeper/txutils.go`, `x/evm/types/{txutils,chain_config}.go`, `jsonrpc/types/tx.go` | `TxUtils`, `RpcTx` |
| `app/ante/*`, `app/posthandler/*`, `x/evm/ante/gas_prices.go` | `SigAnte`, `Fees` |
| `x/evm/keeper/{genesis,params,keeper,query_server,address}.go`, `x/evm/abci.go`, `x/evm/types/{auth,params}.go` | `Genesis`, `Params`, `Identity`, `Query` |
| `x/evm/precompiles/{cosmos,erc20_registry}`, `x/evm/types/query_cosmos.go` | `Exec`, `PrecompileCtx`, `Query` |
| `x/bank/keeper/*` | `Bank` |
| `indexer/*` | `IndexStore`, `Indexer`, `TxPool`, `Filters` |
| `jsonrpc/backend/gas.go` (price), `app/keepers/gas_price.go`, `x/evm/keeper/context_utils.go` (prices) | `GasPrice` |
| `jsonrpc/backend/*`, `jsonrpc/namespaces/eth/{api,filters/*}.go`, `jsonrpc/types/transaction_args.go` | `BlockTag`, `LogFilter`, `Filters`, `FeeHistory`, `SendQueue`, `LockTable`, `TxPool`, `Query`, `RpcTx` |
| `x/evm/keeper/msg_server.go` (handlers), `x/evm/types/log.go`, `indexer/utils.go` | `Messages` |
| `x/evm/types/keys.go`, `indexer/keys.go` and the ranges walked | `Keys` |
| `app/ante/ante.go`, `app/posthandler/posthandler.go` as a whole (with cosmos-sdk's `runTx` by contract) | `Pipeline` |
| `x/evm/state/statedb.go` (`GetStorageRoot`), `x/evm/keeper/context.go` (`EVMCreateWithTracer`, `NextContractAddress`) with go-ethereum's `evm.create` by contract | `Create` |
| `x/evm/contracts/util/Strings.sol`, `ERC20Wrapper._ibc_transfer` (Solidity), `x/evm/precompiles/cosmos/contract.go` (`execute_cosmos` decoding) with gogoproto's `jsonpb` by contract | `WrapMsg` |
| base-0 number texts (`math/big`, `cosmossdk.io/math`), by contract | `BigText` |
| `x/bank/keeper/msg_server.go` `MultiSend`, `send.go` `InputOutputCoins`: return an error unconditionally | not modelled |
| `app/ante/sigverify.go` (gas consumers), `app/ante/verify.go` on multisigs, `app/ante/ante.go` (`CreateAnteHandlerForOPinit`) with cosmos-sdk's multisig verification by contract | `SigGas` |
| `x/evm/keeper/msg_server.go` (`testFeeDenom`), `x/evm/keeper/context_utils.go` (`LoadFee`) | `FeeDenom` |
| `app/ibc-hooks/util.go` (`validateAndParseMemo`, `jsonStringHasKey`), `app/ibc-hooks/message.go` | `Memo` |
| `x/evm/keeper/context.go` (nesting of executions through `dispatchMessages`) | `Nested` |
| `x/evm/keeper/erc20.go` (`IterateAccountBalances`, `GetPaginatedBalances`, `balanceOf`) on a gas meter | `Listing` |
| `x/bank/keeper/view.go`, `genesis.go` (export over accounts of any length) | `Export` |
| `jsonrpc/backend/gas.go` (`EstimateGas`, gas), with `app/ante/fee.go`, `x/evm/keeper/context.go` | `Estimate` |
| `indexer/abci.go`, `indexer/utils.go`, `x/evm/keeper/txutils.go` (panics and errors on the consensus path), `indexer/mempool.go` | `Halt` |
| `indexer/abci.go` (gas of receipts and headers), `jsonrpc/backend/tx.go` (`marshalReceipt`), with the fee and refund code | `Cost` |
| `x/evm/precompiles/cosmos/contract.go`, `x/evm/precompiles/erc20_registry/contract.go` (answers) | `Answers` |
| `x/bank/keeper`, `x/evm` (whole histories of acts) | `Books` |
| `jsonrpc/namespaces/eth/filters/filter.go` (goroutines of a range query) | `LogStream` |
| `app/ante/ante.go`, `app/posthandler/*.go`, `runTx` on the token ledger | `Charges` |
| `cmd/minitiad/rollback.go` | `Rollback` |
| `jsonrpc/namespaces/eth/api.go: GetStorageAt, GetCode, decodeHash`; `x/evm/keeper/query_server.go: State, Code`; `jsonrpc/backend/net.go` | `Model/ReadText` |
| `app/upgrade.go`, `x/evm/keeper/genesis.go` (`Initialize`, `DeployERC20Factory`, `DeployERC20Wrapper`) | `Upgrade` |
| `cmd/minitiad/root.go:173-196`, `jsonrpc/jsonrpc.go` (`StartJSONRPC`, two servers) | `Endpoints` |
| `x/evm/keeper/context.go` (`buildBlockContext`, `buildTxContext`), `jsonrpc/backend/block.go` (`formatHeader`) | `BlockEnv` |
| `x/evm/contracts/erc721/ERC721.sol`, `ICS721ERC721.sol` with receivers that call back | `NftHooks` |
| `x/bank/keeper/grpc_query.go` (`Balance`, `SpendableBalanceByDenom`, `SupplyOf`), `keeper.go` (`GetSupply`, `HasSupply`), `view.go` (`GetBalance`, `HasBalance`, `SpendableCoin`) | `BankQuery` |
| `x/evm/types/errors.go` (`NewRevertError`), error paths of `context.go`, `msg_server.go`, `query_server.go`, `jsonrpc/backend/eth.go`, `gas.go` | `RevertText` |
| `x/evm/precompiles/cosmos/contract.go` (`query_cosmos`), `x/evm/types/query_cosmos.go`, under concurrency | `Oracle` |
| `x/evm/state/statedb.go` calls of the fee token's contract (`AddBalance`, `SubBalance`, self-destructs, the burns of `Commit`), tied to the plain balances of `World` | `FeeToken` |
| `jsonrpc/backend/cosmos.go`, `jsonrpc/namespaces/cosmos/api.go` (hash translation) | `Translate` |
| `x/evm/client/cli/tx.go` | `Cli` |
| `app/genesis.go`, `app/const.go`, `app/modules.go` (registered services), `cmd/minitiad/launch.go`, the interchain account host, authz and rate limiting as wired in `app/keepers/keepers.go` | `Routes` |
| `jsonrpc/config/config.go`, `jsonrpc/jsonrpc.go` (registration), `x/evm/config/config.go`, `jsonrpc/backend/txpool.go` (`TxPoolInspect`), `jsonrpc/backend/eth.go` (`Syncing`) | `NodeConfig` |
| `app/blocksdk.go` | `Lanes` |
| `app/indexer.go`, `app/app.go` (indexers), `cmd/minitiad/root.go` (`PostSetup`) | `Startup` |
| `x/evm/types/genesis.go` | `Genesis` |
| `x/evm/keeper/keeper.go` (`execIndex`), node restarts, concurrent queries | `Nodes` |
| `x/evm/state/statedb.go` refund counter with storage writes | `Refunds` |
| `x/evm/state/statedb.go` waiting frames under reverts | `Callbacks` |
| `cmd/minitiad/init.go` `InitCmd` | `InitCmd` |
| `app/keepers/keepers.go` (the middleware stacks of the transfer and nft-transfer ports), `app/ibc-hooks/receive.go` over layers that postpone their answer | `Stack` |
| `app/keepers/keepers.go` `NewAppKeeper` (which keeper is handed which), `app/modules.go` `orderEndBlockers` (forwarding) | `Wiring` |
| `jsonrpc/backend/tx.go` `GetTransactionByHash`, `GetTransactionReceipt`, `marshalReceipt` | `Follow` |
| `app/ante/fee.go` around the signature decorators (`app/ante/ante.go:97-101`) | `AnteSigs` |
| `app/ibc-hooks/ack.go`, `timeout.go` (gas of the callback) | `HookGas` |
| `x/evm/keeper/precompiles.go`, blocks that use the oracle | `NodesOracle` |
| `app/ibc-hooks/receive.go` (gas) | `HookGas` |
| `x/evm/contracts/erc20_wrapper/ERC20Wrapper.sol` (`wrap` with the transfer it sends) | `WrapSend` |
| x/evm/keeper/erc20.go:119-172 (`GetMetadata`) | `TokenMeta` |
| x/evm/keeper/erc20.go:175-219 (`GetPaginatedBalances`, `GetPaginatedSupply`), x/bank/keeper/grpc_query.go:46-88, 114-122 | `Paging` |
| accounts created by `RegisterStore`, `SendCoins`, `GetModuleAccount`, `CreateContract`, signers | `ModuleAcct` |

Not modelled: the EVM interpreter itself (go-ethereum; an execution is an arbitrary sequence or tree of
state-database operations), the cosmos-sdk/CometBFT/ibc-go/bigcache internals (documented contracts, stated where
used), Solidity compilation (contracts are transcribed by hand), generated code (`*.pulsar.go`, `*.pb.go`, abigen
bindings), command-line clients (`x/*/client`, and of `cmd` all but `init` and the configuration it reads), logging and
metrics, gas costs of individual store accesses, and `eth_getProof`-like methods that only forward. Of the wiring
(`app/app.go`, `app/keepers/keepers.go`, module registration) only the parts named in the table are modelled: the
middleware stacks, which keeper is handed to which, the order of module hooks, the lanes, the ante handlers; of start-up
the configuration of the JSON-RPC server and of the EVM (`NodeConfig`, `InitCmd`, `Startup`).

Observations that could not be turned into theorems because they depend on library behaviour:

* `ERC20Wrapper.wrap`: C83 proves, under the documented behaviour of `jsonpb` (first value of the stream, last duplicate
  member wins, unknown members rejected), that ordinary calls always revert and that crafted ones empty the wrapper.
  C49 and the other claims about the wrapper's ledger hold of every call that gets past `execute_cosmos`. `C49_drain_violated`
  and `C49_injection_violated` follow the message further, through the transfer module: the receiver string decides
  which coins are escrowed, so the tokens locked for others can be taken. Even with a
  lenient decoder the acknowledgement hook would not fire: it looks for `async_callback` in the memo.
* `DefaultChainConfig` (x/evm/types/chain_config.go:31-60) activates the Verkle fork at time 0. Upstream go-ethereum of
  that age then switches the EIP-2929 warm/cold gas rules off (EIP-4762 instead) and starts from the Shanghai
  instruction set, i.e. without the Cancun opcodes unless `extra_eips` lists them. The fork actually used
  (`initia-labs/evm`) is not in /repo. C05, C09 and C47 are statements about the state database, which keeps its
  access list and transient storage either way; C82 is proved for both values of the EIP-2929 flag.
* `GetStorageRoot` (statedb.go:714) opens a store iterator and never closes it.
* `app/keepers/keepers.go:333-345` hands `appKeepers.TransferKeeper` to the forwarding keeper before it is assigned
  (line 373), so the keeper is given a nil pointer and nothing in /repo corrects it later; `app/modules.go:176` lists the
  forwarding module among the end blockers. C167 proves what follows under two facts about libraries that are not in
  /repo: `ExecuteForwards` of the forwarding module calls the keeper's `Transfer` without recovering, and ibc-go's
  `Transfer` has a value receiver, so that calling it through a nil pointer panics.

{"id": "C01", "title": "A reverted inner call undoes exactly its own effects and the outer call's effects are still committed", "statement": "If a contract call makes an inner call that reverts (try/catch), then after the transaction commits, the chain state is exactly the state produced by the operations that were not inside a reverted frame: nothing written by the reverted frame survives and nothing written by surviving frames is lost.", "quantifier": "every finite history of reads, writes, snapshots, reverts to a live snapshot and one final commit, at every nesting depth", "why_tests_cant": "the number of nestings and interleavings of snapshot/revert/write is unbounded; tests only exercise one or two levels", "anchors": ["x/evm/state/statedb.go:Snapshot", "x/evm/state/statedb.go:RevertToSnapshot", "x/evm/state/statedb.go:Commit", "x/evm/state/snapshot.go:NewSnapshot"]}
{"id": "C02", "title": "A failed top-level EVM execution leaves chain state untouched", "statement": "If a top-level call/create reverts (its outermost frame is reverted), or is a static call, no store of the chain differs from what it was before the execution started, whatever the execution did in between.", "quantifier": "every initial store, every history of state operations ending without a commit or with a revert to the outermost snapshot", "why_tests_cant": "needs every possible sequence of state operations, not sampled ones", "anchors": ["x/evm/state/statedb.go:RevertToSnapshot", "x/evm/keeper/context.go:EVMCallWithTracer", "x/evm/keeper/context.go:EVMStaticCallWithTracer"]}
{"id": "C03", "title": "Contract storage, code and code size never alias", "statement": "Writing a storage slot, code or code size of one contract never changes any other slot, code or code size, of the same or any other contract.", "quantifier": "every pair of 20-byte addresses, 32-byte slots and 32-byte code hashes, every store", "why_tests_cant": "collision freedom of a key encoding over 2^160 x 2^256 keys cannot be sampled", "anchors": ["x/evm/state/keys.go:codeKey", "x/evm/state/keys.go:codeSizeKey", "x/evm/state/keys.go:stateKey", "x/evm/state/statedb.go:SetState", "x/evm/state/statedb.go:SetCode"]}
{"id": "C04", "title": "Code, code hash and code size stay consistent", "statement": "After code is deployed at an address, EXTCODECOPY/EXTCODEHASH/EXTCODESIZE of that address return that code, its keccak hash and its length, and keep doing so through every later storage, nonce, log, transient or access-list operation; addresses never deployed have empty code, size 0 and hash 0 (no account) or the empty-code hash (non contract account).", "quantifier": "every code byte string shorter than 2^64, every later sequence of operations not touching that account's code", "why_tests_cant": "unbounded code and unbounded follow-up histories", "anchors": ["x/evm/state/statedb.go:SetCode", "x/evm/state/statedb.go:GetCode", "x/evm/state/statedb.go:GetCodeHash", "x/evm/state/statedb.go:GetCodeSize", "x/evm/state/keys.go:uint64ToBytes"]}
{"id": "C05", "title": "Transient storage is private to a contract and to one transaction", "statement": "TLOAD(key) in contract A returns the last value contract A itself stored under key in the same transaction (zero if none): another contract's TSTORE never influences it and nothing carries over to the next execution.", "quantifier": "every pair of contracts, keys and values, every interleaving of stores, every execution index", "why_tests_cant": "isolation over all contract pairs and histories", "anchors": ["x/evm/state/statedb.go:SetTransientState", "x/evm/state/statedb.go:GetTransientState", "x/evm/state/statedb.go:NewStateDB"]}
{"id": "C06", "title": "Self-destruct removes exactly the destroyed contract", "statement": "SELFDESTRUCT (EIP-6780) takes effect only for a contract created in the same transaction; at commit every destroyed contract's account, code, code size, storage and native balance are gone, and no other address's account, code, storage or balance changes.", "quantifier": "every set of destroyed addresses, every store content, every other address", "why_tests_cant": "universally quantified frame condition over all addresses and keys", "anchors": ["x/evm/state/statedb.go:SelfDestruct", "x/evm/state/statedb.go:Selfdestruct6780", "x/evm/state/statedb.go:Commit"]}
{"id": "C07", "title": "Logs are the emitted events, in order, without those of reverted frames", "statement": "The logs reported for an execution are exactly the events emitted by surviving frames of that execution, in emission order, and an execution never sees logs of another execution.", "quantifier": "every sequence of log emissions, snapshots and reverts to a snapshot, every log count", "why_tests_cant": "unbounded number of logs and frames", "anchors": ["x/evm/state/statedb.go:AddLog", "x/evm/state/statedb.go:Logs"]}
{"id": "C08", "title": "Gas refund counter and EIP-3529 cap", "statement": "The refund counter is the sum of additions minus subtractions of surviving frames and never goes below zero (the execution aborts instead); the gas charged is used gas minus min(used/5, refund), so it is at least 4/5 of the gas used and never above it.", "quantifier": "every gas limit, remaining gas and refund value; every sequence of refund additions and subtractions", "why_tests_cant": "64-bit arithmetic on all inputs", "anchors": ["x/evm/types/gas.go:CalGasUsed", "x/evm/state/statedb.go:AddRefund", "x/evm/state/statedb.go:SubRefund"]}
{"id": "C09", "title": "Warm/cold access list is exact", "statement": "After the preparation step an address is warm iff it is the sender, the destination, a precompile, an address in the transaction's access list or the coinbase; a slot is warm iff listed; during execution an address/slot becomes warm only by being accessed, a warm slot always has a warm address, and a revert to a snapshot restores the warm set.", "quantifier": "every address, slot, access list and sequence of accesses", "why_tests_cant": "set equality over all addresses and histories", "anchors": ["x/evm/state/statedb.go:Prepare", "x/evm/state/statedb.go:AddSlotToAccessList", "x/evm/state/statedb.go:SlotInAccessList"]}
{"id": "C10", "title": "Contract creation never hijacks an existing account and account numbers stay unique", "statement": "Creating a contract succeeds only at an address with no account or an empty account (no public key, sequence 0, not a module/contract/shorthand account); an empty account keeps its account number; no two accounts ever share an account number.", "quantifier": "every sequence of account creations, contract creations and code installations", "why_tests_cant": "invariant over all histories", "anchors": ["x/evm/state/statedb.go:CreateContract", "x/evm/state/statedb.go:SetCode", "x/evm/state/statedb.go:CreateAccount", "x/evm/types/auth.go:IsEmptyAccount"]}
{"id": "C11", "title": "Every EVM execution pays for the gas it burned", "statement": "Whenever a call or create executes, the transaction's gas meter is charged with the gas used net of the capped refund, whether it succeeds, reverts or runs out of gas; the charge never exceeds the gas available when it started.", "quantifier": "every gas meter state, every outcome (success, revert, out of gas, other VM error) and remaining gas", "why_tests_cant": "all outcomes x all gas values", "anchors": ["x/evm/keeper/context.go:EVMCallWithTracer", "x/evm/keeper/context.go:EVMCreateWithTracer", "x/evm/keeper/context.go:computeGasLimit", "x/evm/types/gas.go:CalGasUsed"]}
{"id": "C12", "title": "Precompile gas accounting and read-only safety", "statement": "A precompile call never consumes more than the gas supplied without being reported as out of gas, its charge grows with its input, and in a static (read-only) context no state changing method succeeds.", "quantifier": "every method, input, supplied gas and read-only flag", "why_tests_cant": "all inputs and gas values", "anchors": ["x/evm/precompiles/cosmos/contract.go:ExtendedRun", "x/evm/precompiles/erc20_registry/contract.go:ExtendedRun"]}
{"id": "C13", "title": "A contract can only dispatch Cosmos messages as itself, and only if its frame survives", "statement": "A Cosmos message scheduled through the precompile is dispatched only if every one of its signers is the calling contract's own Cosmos address; scheduled messages are dispatched once, in scheduling order, only after the EVM state committed, never from a static call, never from a frame that was reverted, and a failing message fails the whole execution.", "quantifier": "every caller, message, signer set, call tree with reverts", "why_tests_cant": "authorization over all messages and all call trees", "anchors": ["x/evm/precompiles/cosmos/contract.go:ExtendedRun", "x/evm/keeper/context.go:dispatchMessages", "x/evm/keeper/context.go:EVMCallWithTracer"]}
{"id": "C14", "title": "Wei/token unit conversion loses no value", "statement": "For a fee token with at most 18 decimals, converting tokens to wei and back is the identity, converting wei to tokens rounds down by less than one token unit, both are monotone; for more than 18 decimals the roles swap.", "quantifier": "every decimals value (0..255) and every amount", "why_tests_cant": "unbounded integers", "anchors": ["x/evm/types/decimals.go:ToEthersUint", "x/evm/types/decimals.go:FromEthersUnit", "x/evm/types/decimals.go:ToGweiUint", "x/evm/types/decimals.go:FromGweiUnit"]}
{"id": "C15", "title": "The Cosmos fee of an Ethereum transaction covers its gas fee cap", "statement": "The fee charged for a converted Ethereum transaction is at least gasFeeCap x gasLimit in token value and exceeds it by at most one token unit; a zero fee cap costs nothing.", "quantifier": "every fee cap, gas limit and decimals", "why_tests_cant": "unbounded integers and rounding", "anchors": ["x/evm/keeper/txutils.go:computeGasFeeAmount"]}
{"id": "C16", "title": "Gas refunds never exceed the fee paid", "statement": "After a successful Ethereum transaction the fee payer (or granter) is refunded at most ratio x unused gas x gas price, never more than the fee paid, and nothing on failure or for non Ethereum transactions.", "quantifier": "every fee, gas limit, consumed gas and refund ratio in [0,1]", "why_tests_cant": "fixed-point truncation over all values", "anchors": ["app/posthandler/gasrefund.go:PostHandle", "x/evm/ante/gas_prices.go:AnteHandle"]}
{"id": "C17", "title": "Ethereum transactions round-trip through the Cosmos encoding", "statement": "Converting a valid signed Ethereum transaction (legacy EIP-155, access list, dynamic fee) to a Cosmos transaction and back yields the same transaction: type, nonce, gas, fee caps, destination, value, data, access list, chain id and signature.", "quantifier": "every well-formed Ethereum transaction and chain id", "why_tests_cant": "byte-level round trip over an infinite domain", "anchors": ["x/evm/keeper/txutils.go:ConvertEthereumTxToCosmosTx", "x/evm/keeper/txutils.go:ConvertCosmosTxToEthereumTx", "x/evm/types/txutils.go"]}
{"id": "C18", "title": "An Ethereum signature authorizes exactly one Cosmos transaction", "statement": "If a Cosmos transaction is accepted on the strength of an Ethereum signature, then everything it does (message, contract, input, value, gas, fee, sequence) is determined by the signed Ethereum transaction: nobody can re-wrap the signature around a different message or a higher fee.", "quantifier": "every pair of Cosmos transactions that convert to the same Ethereum transaction", "why_tests_cant": "non-malleability over all pairs of transactions", "anchors": ["app/ante/verify.go:verifySignature", "x/evm/keeper/txutils.go:ConvertCosmosTxToEthereumTx"]}
{"id": "C19", "title": "Transactions are only accepted with valid signatures and the exact sequence", "statement": "Outside simulation, the signature check passes only if there is exactly one signature per signer, every signature carries its account's current sequence and (outside recheck) verifies: Ethereum-mode signatures recover to the address of the attached public key, other modes verify under the account's key.", "quantifier": "every transaction, account state and mode flags", "why_tests_cant": "authorization decision over all inputs", "anchors": ["app/ante/sigverify.go:SigVerificationDecorator.AnteHandle", "app/ante/verify.go:verifySignature"]}
{"id": "C20", "title": "Replay protection: every included transaction advances its signers' sequences", "statement": "After a transaction passes the ante handler in block execution, whether its messages succeed or fail, the sequence of each signer is strictly larger than before, and for an n-message EVM transaction it advances by exactly n on success and by 1 on failure.", "quantifier": "every list of messages and signers, success and every failure point", "why_tests_cant": "all message lists and failure points", "anchors": ["app/ante/sigverify.go:IncrementSequenceDecorator.AnteHandle", "app/posthandler/sequence.go:PostHandle", "x/evm/keeper/msg_server.go:increaseNonce"]}
{"id": "C21", "title": "Denom and ERC20 contract are in one-to-one correspondence", "statement": "At all times a denom resolves to a contract iff that contract resolves back to the denom: no two denoms share a contract and no two contracts share a denom.", "quantifier": "every sequence of ERC20 creations/registrations/mints", "why_tests_cant": "invariant over all histories", "anchors": ["x/evm/keeper/erc20.go:CreateERC20", "x/evm/types/denom.go:DenomToContractAddr", "x/evm/types/denom.go:ContractAddrToDenom"]}
{"id": "C22", "title": "Contract-derived denoms are canonical", "statement": "For a contract without a registered denom, the denom derived from it resolves back to it, and resolving a derived denom and naming the contract again gives the same denom.", "quantifier": "every address and every string accepted as a denom", "why_tests_cant": "encoding over 2^160 addresses", "anchors": ["x/evm/types/denom.go:DenomToContractAddr", "x/evm/types/denom.go:ContractAddrToDenom", "x/evm/types/denom.go:IsERC20Denom"]}
{"id": "C23", "title": "Supply equals the sum of balances for every token", "statement": "For every token of the chain's ERC20 contract, total supply equals the sum of all balances after any sequence of transfers, approvals, mints, burns and chain-privileged operations; balances never exceed 2^256-1 and no operation wraps.", "quantifier": "every sequence of ERC20 contract calls by any callers", "why_tests_cant": "invariant over all histories and callers", "anchors": ["x/evm/contracts/erc20/ERC20.sol", "x/evm/contracts/initia_erc20/InitiaERC20.sol"]}
{"id": "C24", "title": "Only authorized callers move or create tokens", "statement": "A balance decreases only by a call of its owner, by a spender within its allowance (which decreases by the same amount) or by the chain itself; supply grows only through the contract owner or the chain; ordinary transfers/mints never credit a blocked address and ordinary burns never debit a module address.", "quantifier": "every caller, operation and state", "why_tests_cant": "access control over all callers", "anchors": ["x/evm/contracts/erc20/ERC20.sol", "x/evm/contracts/erc20_acl/ERC20ACL.sol"]}
{"id": "C25", "title": "Bank send moves exactly the stated coins", "statement": "A successful bank send debits the sender and credits the recipient with exactly the listed amounts in every denom, leaves all other balances and every supply unchanged; a failing one (in a discarded branch) changes nothing.", "quantifier": "every coin list, pair of addresses (equal or not), balances", "why_tests_cant": "all balances and multi-coin sends", "anchors": ["x/evm/keeper/erc20.go:SendCoins", "x/bank/keeper/send.go:SendCoins"]}
{"id": "C26", "title": "Bank burn removes exactly the stated coins", "statement": "Burning coins debits the account by exactly the listed amounts; a coin backed by a third-party contract (denom evm/...) is moved to the community pool instead of being destroyed, every other listed coin is destroyed exactly once.", "quantifier": "every coin list, balances", "why_tests_cant": "multi-coin combinations", "anchors": ["x/evm/keeper/erc20.go:BurnCoins"]}
{"id": "C27", "title": "Bank mint creates exactly the stated coins and never touches third-party tokens", "statement": "Minting credits the account and increases each supply by exactly the listed amounts; it fails for denoms backed by third-party contracts (evm/...); the first mint of an unknown denom creates exactly one contract for it.", "quantifier": "every coin list, state", "why_tests_cant": "multi-coin combinations and histories", "anchors": ["x/evm/keeper/erc20.go:MintCoins", "x/evm/keeper/erc20.go:CreateERC20"]}
{"id": "C28", "title": "Balance queries see every token an account holds", "statement": "For every account and registered token with non-zero balance, the bank balance listing contains exactly one entry for that denom with that amount, and lists no zero balances: the store registry is never missing a holder.", "quantifier": "every history of transfers, mints and registrations", "why_tests_cant": "invariant relating the registry to contract storage over all histories", "anchors": ["x/evm/keeper/erc20.go:IterateAccountBalances", "x/evm/keeper/erc20_stores.go:RegisterStore", "x/evm/contracts/erc20_registry/ERC20Registry.sol"]}
{"id": "C29", "title": "ERC20 registry is permissioned", "statement": "A token enters the registry only through the factory, or by its own registration while custom ERC20s are allowed (and, if an allow list exists, only if listed); registered tokens stay registered; only the factory contract may use factory registration.", "quantifier": "every parameter setting, caller and history", "why_tests_cant": "all parameter/caller combinations", "anchors": ["x/evm/keeper/erc20_stores.go:Register", "x/evm/keeper/erc20_stores.go:RegisterFromFactory", "x/evm/precompiles/erc20_registry/contract.go"]}
{"id": "C30", "title": "Long Cosmos addresses never share an EVM identity", "statement": "Two different Cosmos addresses that have both acted as signers never map to the same EVM address, and a signer's mapping never changes; a conflicting address is rejected with an error.", "quantifier": "every sequence of address registrations of any lengths >= 20", "why_tests_cant": "invariant over all histories and all address pairs", "anchors": ["x/evm/keeper/address.go:convertToEVMAddress"]}
{"id": "C31", "title": "BLOCKHASH window", "statement": "While the retention parameter is N, after block h the chain serves exactly the hashes of the most recent blocks recorded, at most N of them when tracking started with N, each equal to that block's header hash, and returns zero for others.", "quantifier": "every sequence of block heights and hashes, every N", "why_tests_cant": "unbounded block histories", "anchors": ["x/evm/keeper/keeper.go:TrackBlockHash", "x/evm/keeper/context.go:buildBlockContext", "x/evm/keeper/abci.go:PreBlock"]}
{"id": "C32", "title": "Only the authority updates parameters, and only to valid values", "statement": "Parameters change only by a message whose authority is the module's authority; after any history the stored parameters are valid (refund ratio in [0,1], block-hash retention 0 or >= 256, decodable addresses); a rejected update changes nothing.", "quantifier": "every sequence of update messages", "why_tests_cant": "authorization/invariant over all histories", "anchors": ["x/evm/keeper/msg_server.go:UpdateParams", "x/evm/types/params.go:Validate"]}
{"id": "C33", "title": "Contract deployment allow-list", "statement": "When the allowed-publishers parameter is non-empty, a create message from anyone else fails without effect; when empty everyone may deploy.", "quantifier": "every sender, parameter value and message", "why_tests_cant": "all senders", "anchors": ["x/evm/keeper/msg_server.go:Create", "x/evm/keeper/msg_server.go:Create2"]}
{"id": "C34", "title": "Genesis export/import preserves the EVM state", "statement": "Exporting the module state and importing it into an empty chain yields a chain whose contract code, storage, denoms, classes, registries and parameters all answer as before, and exporting again gives the same genesis.", "quantifier": "every module state", "why_tests_cant": "round trip over arbitrarily large states", "anchors": ["x/evm/keeper/genesis.go:InitGenesis", "x/evm/keeper/genesis.go:ExportGenesis"]}
{"id": "C35", "title": "IBC receive hook runs only for allowed contracts, as an address nobody controls", "statement": "An incoming packet triggers a contract call only if its memo asks for one, the packet receiver equals the target contract and the contract is allow-listed; the call's sender is the channel-and-sender derived intermediate address, tokens are first credited to that address; if any step fails the acknowledgement is an error.", "quantifier": "every packet, memo and ACL", "why_tests_cant": "decision logic over all packets", "anchors": ["app/ibc-hooks/receive.go:onRecvIcs20Packet", "app/ibc-hooks/util.go:deriveIntermediateSender"]}
{"id": "C36", "title": "IBC ack/timeout hooks never block packet processing and are atomic", "statement": "After the transfer module's own callback succeeded, acknowledgement and timeout processing always succeeds; the contract callback's state changes are kept only if the callback succeeded and the contract is allow-listed, otherwise no state change remains.", "quantifier": "every packet, memo, contract outcome", "why_tests_cant": "all outcomes including failures/panics", "anchors": ["app/ibc-hooks/ack.go:onAckIcs20Packet", "app/ibc-hooks/timeout.go:onTimeoutIcs20Packet"]}
{"id": "C37", "title": "Indexer cache reads like the store", "statement": "Reading a key through the indexer's cached store always returns what the last write to that key stored (or nothing after a delete), independently of cache evictions.", "quantifier": "every sequence of sets, deletes, gets, flushes and evictions", "why_tests_cant": "all interleavings of eviction and operations", "anchors": ["indexer/store.go:CacheStore"]}
{"id": "C38", "title": "Indexed blocks answer transaction queries consistently", "statement": "For every Ethereum transaction in an indexed block: lookup by hash, by Cosmos hash, and by (block, index) agree and return its receipt; indices enumerate the block's Ethereum transactions consecutively from 0; cumulative gas is the running sum; non-Ethereum transactions are skipped.", "quantifier": "every block (list of transactions and results), any number of blocks", "why_tests_cant": "arbitrary block contents and lengths", "anchors": ["indexer/abci.go:ListenFinalizeBlock", "indexer/reader.go"]}
{"id": "C39", "title": "Log indices are unique within a block", "statement": "Each log served for a block has a distinct index equal to its position in the block, and its transaction index points to its transaction.", "quantifier": "every block", "why_tests_cant": "arbitrary block contents", "anchors": ["indexer/abci.go:ListenFinalizeBlock", "jsonrpc/backend/filters.go:GetLogsByHeight"]}
{"id": "C40", "title": "eth_getLogs returns exactly the matching logs", "statement": "A log query over a block range returns exactly the logs of existing blocks in the range that match the address/topic filter, in block order: bloom prefiltering never hides a match.", "quantifier": "every filter, block range, chain content", "why_tests_cant": "completeness over all logs and bloom values", "anchors": ["jsonrpc/namespaces/eth/filters/filter.go:Logs", "jsonrpc/namespaces/eth/filters/filter.go:filterLogs", "jsonrpc/namespaces/eth/filters/filter.go:bloomFilter"]}
{"id": "C41", "title": "Queued transactions are broadcast in nonce order without gaps", "statement": "For a sender, transactions are handed to the chain in strictly consecutive nonce order starting at the account's sequence; a transaction with a future nonce waits until the gap is filled; a stale nonce is rejected; no queued transaction is broadcast twice.", "quantifier": "every arrival order of nonces, every broadcast outcome", "why_tests_cant": "all arrival interleavings", "anchors": ["jsonrpc/backend/tx.go:SendTx"]}
{"id": "C42", "title": "Filter lifecycle", "statement": "A polling filter stays installed as long as it is polled within the timeout; each event is delivered exactly once, in order; an uninstalled filter receives nothing.", "quantifier": "every sequence of install/poll/event/tick/uninstall operations", "why_tests_cant": "timing interleavings", "anchors": ["jsonrpc/namespaces/eth/filters/api.go"]}
{"id": "C43", "title": "Fee history shape", "statement": "eth_feeHistory returns for a valid request consecutive existing blocks ending at the requested (or head) block, with one ratio and one reward row per block, independent of the order worker goroutines finish; percentile rewards are monotone in the percentile.", "quantifier": "every request, head, goroutine schedule", "why_tests_cant": "schedules and ranges", "anchors": ["jsonrpc/backend/feehistory.go:FeeHistory", "jsonrpc/backend/feehistory.go:processBlock", "jsonrpc/backend/feehistory.go:resolveBlockRange"]}
{"id": "C44", "title": "Bank send restrictions and permissions", "statement": "User sends are executed only when every coin's denom is send-enabled and the recipient is not blocked; module mint/burn succeed only for modules holding the permission; send restrictions are always applied and their rewritten recipient is the one credited.", "quantifier": "every configuration and message", "why_tests_cant": "decision logic over all configurations", "anchors": ["x/bank/keeper/send.go", "x/bank/keeper/keeper.go", "x/bank/keeper/msg_server.go"]}
{"id": "C45", "title": "Transactions pay gas for signature verification", "statement": "Every ante step after fee deduction charges the transaction's own gas meter: a transaction whose limit is below the cost of its signature checks is rejected.", "quantifier": "every transaction and gas limit", "why_tests_cant": "all limits", "anchors": ["app/ante/fee.go:GasFreeFeeDecorator.AnteHandle", "app/ante/ante.go:NewAnteHandler"]}
{"id": "C46", "title": "Read-only queries never change chain state", "statement": "eth_call, gas estimation, balance and bank queries never change any chain store, even when the executed contract writes.", "quantifier": "every query and state", "why_tests_cant": "all contract behaviours", "anchors": ["x/evm/keeper/query_server.go:Call", "x/evm/keeper/context.go:EVMStaticCallWithTracer"]}
{"id": "C47", "title": "Transaction access lists are honoured", "statement": "Addresses and slots listed in an EIP-2930/1559 transaction are warm during its execution.", "quantifier": "every access list", "why_tests_cant": "all lists", "anchors": ["x/evm/keeper/msg_server.go:Call", "x/evm/keeper/msg_server.go:Create", "x/evm/state/statedb.go:Prepare"]}
{"id": "C48", "title": "NFT classes and tokens map one-to-one and mint/transfer/burn are exact", "statement": "Each NFT class corresponds to exactly one contract; ids of non-IBC classes are decimal strings mapped to the number they denote; mint/transfer/burn of a list of tokens changes ownership of exactly those tokens or fails.", "quantifier": "every class, list of token ids, history", "why_tests_cant": "invariants over all histories", "anchors": ["x/evm/keeper/erc721.go", "x/evm/types/collection.go"]}
{"id": "C49", "title": "ERC20 wrapper is always solvent", "statement": "For every wrapped token the wrapper contract holds enough of the origin token to redeem all outstanding wrapped tokens, through any sequence of wraps, unwraps and failed-transfer callbacks; and a failed IBC transfer can be refunded to its sender.", "quantifier": "every sequence of wrap/unwrap/callback operations, every decimals", "why_tests_cant": "invariant over all histories with rounding", "anchors": ["x/evm/contracts/erc20_wrapper/ERC20Wrapper.sol"]}
{"id": "C50", "title": "IBC denom naming matches the transfer module", "statement": "The local denom computed by the hook for a received packet strips the prefix of a returning token and hashes the trace of a foreign token, exactly as the transfer module credits it.", "quantifier": "every port/channel/denom trace", "why_tests_cant": "all traces", "anchors": ["app/ibc-hooks/util.go:LocalDenom", "app/ibc-hooks/util.go:LocalClassId"]}
{"id": "C51", "title": "Block tags resolve consistently", "statement": "latest/pending/negative tags resolve to the head, earliest to block 1, numbers to themselves, consistently across all block-parametrised RPC methods.", "quantifier": "every block number/tag and head", "why_tests_cant": "all tags and methods", "anchors": ["jsonrpc/backend/block.go:resolveBlockNr", "jsonrpc/backend/tx.go"]}
{"id": "C52", "title": "Addresses given as hex or bech32 denote the same contract", "statement": "Parsing an address string as hex (any case, with or without 0x) or bech32 gives the denoted 20 bytes; printing and parsing round-trips; malformed strings are rejected.", "quantifier": "every address string", "why_tests_cant": "all strings", "anchors": ["x/evm/types/address.go:ContractAddressFromString", "app/ibc-hooks/receive.go"]}
{"id": "C53", "title": "EVM chain id is a function of the chain name within range", "statement": "The EVM chain id derived from a Cosmos chain id is deterministic, and less than 4503599627370476 so legacy signature values stay exact in 64 bits.", "quantifier": "every chain id string", "why_tests_cant": "all strings", "anchors": ["x/evm/types/chain_config.go:ConvertCosmosChainIDToEthereumChainID"]}
{"id": "C54", "title": "Nested executions are isolated by execution index", "statement": "Two EVM executions within one block (including nested ones started from a precompile) never see each other's logs, transient storage, refund, access list or created/destroyed marks.", "quantifier": "every pair of executions and any interleaving", "why_tests_cant": "all interleavings", "anchors": ["x/evm/state/statedb.go:NewStateDB"]}
{"id": "C55", "title": "Committed (original) storage is the value at transaction start", "statement": "During an execution, the committed value of a slot (used for SSTORE gas and refunds) is the value at the start of the execution whatever was written, snapshotted or reverted since.", "quantifier": "every history of operations", "why_tests_cant": "all histories", "anchors": ["x/evm/state/statedb.go:GetCommittedState"]}
{"id": "C56", "title": "Precompile effects belong to the frame that calls them", "statement": "What a precompile reads is the state as the calling frame sees it (including what the frame wrote before), and what it writes is undone when that frame or an enclosing one reverts.", "quantifier": "every call tree, every precompile computation and every initial store", "why_tests_cant": "It must hold for every interleaving of contract writes, precompile calls and reverts.", "anchors": ["x/evm/keeper/context.go:CreateEVM", "x/evm/keeper/precompiles.go:toMap", "x/evm/precompiles/erc20_registry/contract.go:ExtendedRun"]}
{"id": "C57", "title": "Gas price seen by contracts is the configured price in wei, rounded down", "statement": "The GASPRICE and BASEFEE a contract observes are the transaction's gas price and the chain's base gas price, converted from fee-token units to wei, rounded down, for every number of decimals of the fee token.", "quantifier": "every decimal gas price, every number of fee-token decimals", "why_tests_cant": "All prices and decimals, including those near the byte-arithmetic boundary.", "anchors": ["x/evm/keeper/context_utils.go:baseFee", "x/evm/keeper/context_utils.go:extractGasPriceFromContext"]}
{"id": "C58", "title": "A hook call may spend exactly what was received", "statement": "When a received transfer triggers a contract call, the contract that is called (and nobody else) is given an allowance of exactly the received amount of the received token before the call.", "quantifier": "every packet, token origin, and every accepted spelling of the contract address", "why_tests_cant": "Tests use one hexadecimal contract address and one voucher denom; the address and denom spellings form an unbounded set.", "anchors": ["app/ibc-hooks/receive.go:onRecvIcs20Packet", "app/ibc-hooks/receive.go:approveERC20", "x/evm/types/address.go:ContractAddressFromString"]}
{"id": "C59", "title": "The index survives crashes", "statement": "After any crash and restart, every block the application has committed is (or becomes) answerable by the JSON-RPC index.", "quantifier": "every crash point and every later run", "why_tests_cant": "The window between the application's commit and the index flush is only hit by a crash at one instant.", "anchors": ["indexer/abci.go:ListenCommit", "indexer/abci.go:ListenFinalizeBlock"]}
{"id": "C60", "title": "Submissions of one sender are serialised", "statement": "At most one submission of a given sender is being processed at a time; submissions of different senders do not block each other; every waiting submission is served by the same lock; nothing is left behind when all are done; and the lock table itself is accessed without data races.", "quantifier": "every number of concurrent submissions, every sender, every interleaving", "why_tests_cant": "Interleavings of an unbounded number of goroutines.", "anchors": ["jsonrpc/backend/backend.go:acquireAccMut", "jsonrpc/backend/backend.go:releaseAccMut"]}
{"id": "C61", "title": "The raw transaction served is the one that was signed", "statement": "For an indexed Ethereum transaction, rebuilding the transaction from its stored JSON form gives back the original transaction, so the raw bytes and hash served are those of the signed transaction.", "quantifier": "every transaction of every supported type and every field value", "why_tests_cant": "All types, absent fields, access lists and big values.", "anchors": ["jsonrpc/types/tx.go:NewRPCTransaction", "jsonrpc/types/tx.go:ToTransaction"]}
{"id": "C62", "title": "Headers form a hash chain", "statement": "The header served for a block names, as its parent, the hash of the header served for the previous block.", "quantifier": "every chain of blocks", "why_tests_cant": "All chains, including blocks that fail to be indexed.", "anchors": ["indexer/abci.go:ListenFinalizeBlock"]}
{"id": "C63", "title": "The answer to a submission is about that submission", "statement": "eth_sendRawTransaction answers with an error exactly when the submitted transaction itself was refused, and with its hash exactly when it was accepted or queued; a queued transaction is never silently replaced.", "quantifier": "every queue content, every submission, every broadcast outcome", "why_tests_cant": "All queue contents and outcome sequences.", "anchors": ["jsonrpc/backend/tx.go:SendTx"]}
{"id": "C64", "title": "Watching the mempool does not change it", "statement": "Whether or not JSON-RPC clients watch pending transactions, the node's mempool accepts the same transactions and keeps the same contents; and watchers are told about exactly the Ethereum transactions that entered the mempool, once each.", "quantifier": "every transaction whose signature was verified, every mempool behaviour, every number of watchers", "why_tests_cant": "All transactions, all outcomes of the wrapped mempool.", "anchors": ["indexer/mempool.go:Insert"]}
{"id": "C65", "title": "Transaction pool views are complete", "statement": "txpool_content and eth_pendingTransactions list exactly the Ethereum transactions that are pending or queued, each under its sender and nonce, txpool_status gives their numbers, and one transaction never hides others.", "quantifier": "every mempool and queue content", "why_tests_cant": "All pool contents, including non-Ethereum and unconvertible transactions.", "anchors": ["jsonrpc/backend/txpool.go:TxPoolContent", "jsonrpc/backend/txpool.go:TxPoolStatus", "jsonrpc/backend/tx.go:PendingTransactions"]}
{"id": "C66", "title": "Bank genesis: import credits exactly the listed balances, and a restart from an export keeps them", "statement": "Importing a bank genesis credits every listed account with exactly the listed coins, raises supplies by exactly the sum, refuses a wrong total supply and sets exactly the listed switches and metadata; a chain restarted from its own exported genesis has the same balances and supplies as before.", "quantifier": "every genesis document, every ledger state exported", "why_tests_cant": "ranges over all genesis contents and all histories before an export; depends on the order of module imports", "anchors": ["x/bank/keeper/genesis.go:InitGenesis", "x/bank/keeper/genesis.go:ExportGenesis", "app/modules.go:orderInitBlockers", "x/evm/keeper/erc20.go:GetPaginatedSupply"]}
{"id": "C67", "title": "Bank views agree with the ledger and with each other", "statement": "Iterations over balances show every coin of every account once, in order, and halt when the callback says so; the balances listing shows exactly the non-zero balances; the two denom-metadata queries answer alike; the send-enabled query reports exactly the entries in force.", "quantifier": "every ledger state, account list, callback and query", "why_tests_cant": "ranges over all states and callbacks", "anchors": ["x/bank/keeper/view.go:IterateAllBalances", "x/bank/keeper/grpc_query.go", "x/evm/keeper/erc20.go:GetPaginatedBalances"]}
{"id": "C68", "title": "eth_call answers what executing the message would answer", "statement": "eth_call with a sender, callee, data and amount returns the return data that executing that message on the state of the named block returns, and an error when the execution fails.", "quantifier": "every contract behaviour, arguments and state", "why_tests_cant": "ranges over all contract behaviours and amounts", "anchors": ["jsonrpc/backend/eth.go:Call", "x/evm/keeper/query_server.go:Call", "jsonrpc/types/transaction_args.go"]}
{"id": "C69", "title": "A contract's oracle query asks exactly what its text says", "statement": "The request a contract sends through query_cosmos depends only on the text it passes, never on earlier queries or on queries other executions make at the same time.", "quantifier": "every request text, every history and schedule of queries on the node", "why_tests_cant": "depends on the history and interleaving of queries in one process", "anchors": ["x/evm/types/query_cosmos.go:ConvertJSONToProto", "x/evm/types/query_cosmos.go:DefaultQueryCosmosWhitelist", "x/evm/precompiles/cosmos/contract.go"]}
{"id": "C70", "title": "The state database behaves like Ethereum's state", "statement": "After any history of executions starting, performing state operations in any interleaving and committing, every question the EVM can ask (balance, nonce, existence, emptiness, code, code hash, code size, storage, transient storage, self-destruct mark, warm addresses and slots, refund, logs) is answered as by an abstract Ethereum state in which each operation changes exactly what it names, and an execution aborts exactly when the abstract one does. In particular EXTCODEHASH of an existing account without code is the hash of the empty string.", "quantifier": "every history of state operations by any number of interleaved executions, every address, slot and execution", "why_tests_cant": "refinement over all histories and all addresses", "anchors": ["x/evm/state/statedb.go", "x/evm/state/keys.go", "x/evm/types/auth.go"]}
{"id": "C71", "title": "A new contract starts with empty storage", "statement": "Right after its creation a contract reads zero from every storage slot, whoever lived at the address before.", "quantifier": "every history (including self-destructs and commits), address and slot", "why_tests_cant": "invariant over all histories", "anchors": ["x/evm/state/statedb.go:CreateContract", "x/evm/state/statedb.go:Commit", "x/evm/state/statedb.go:SetState"]}
{"id": "C72", "title": "Value moves exactly, or the call is refused", "statement": "A call or creation carrying value moves exactly that amount of the fee token from caller to callee and changes nothing else in any token, if the caller has it; otherwise the call fails, its caller can go on, and nothing changes. No payment aborts the transaction.", "quantifier": "every token state, payer, payee, amount and fee token", "why_tests_cant": "all balances and amounts up to 2^256, all addresses including blocked ones", "anchors": ["x/evm/keeper/context.go:buildBlockContext", "x/evm/state/statedb.go:SubBalance", "x/evm/contracts/initia_erc20/InitiaERC20.sol"]}
{"id": "C73", "title": "A self-destruct moves the whole balance", "statement": "A self-destruct moves the contract's whole balance to the beneficiary, never credits an account that may not receive, and always can be carried out.", "quantifier": "every token state, contract, beneficiary and fee token", "why_tests_cant": "all balances, all addresses, all fee tokens", "anchors": ["x/evm/state/statedb.go:SelfDestruct", "x/evm/state/statedb.go:Commit", "x/evm/state/statedb.go:AddBalance"]}
{"id": "C74", "title": "Contracts and wallets see the same amounts", "statement": "The balance and the value a contract sees are those a wallet sees through eth_getBalance and puts into transactions; a wallet can pay a value exactly if its balance is at least that, and paying lowers the balance by exactly it.", "quantifier": "every number of decimals, balance and value", "why_tests_cant": "arithmetic over all decimals and amounts", "anchors": ["jsonrpc/backend/eth.go:GetBalance", "x/evm/types/decimals.go", "x/evm/keeper/txutils.go:ConvertEthereumTxToCosmosTx", "x/evm/state/statedb.go:GetBalance"]}
{"id": "C75", "title": "Contract code spends only what it may", "statement": "In a message, whatever the contracts do (nested calls with value, reverts, self-destructs), an account in whose name nothing is done and that approved nobody acting loses nothing; and no token's supply grows or owner changes unless an owner acts.", "quantifier": "every program of token calls, value calls to any depth, reverts and self-destructs", "why_tests_cant": "all executions of arbitrary contract code", "anchors": ["x/evm/keeper/context.go:buildBlockContext", "x/evm/state/statedb.go", "x/evm/contracts/initia_erc20/InitiaERC20.sol", "x/evm/contracts/erc20/ERC20.sol"]}
{"id": "C76", "title": "The quoted gas price is enough", "statement": "A transaction that offers at least the price eth_gasPrice quotes is never refused by the mempool for its fee, whatever its gas limit.", "quantifier": "every gas price configuration, number of decimals of the fee token, fee cap and gas limit", "why_tests_cant": "rounding (two different conversions) over all prices, decimals and gas limits", "anchors": ["jsonrpc/backend/gas.go:GasPrice", "x/evm/keeper/txutils.go:computeGasFeeAmount", "app/ante/ante.go", "app/keepers/gas_price.go:GasPrice"]}
{"id": "C77", "title": "Contracts never see a gas price below the base fee", "statement": "In every transaction the mempool accepts, GASPRICE is at least BASEFEE.", "quantifier": "every accepted transaction, fee, gas limit, price configuration and number of decimals", "why_tests_cant": "rounding over all fees, prices and decimals", "anchors": ["x/evm/keeper/context_utils.go:extractGasPriceFromContext", "x/evm/keeper/context_utils.go:baseFee", "x/evm/ante/gas_prices.go"]}
{"id": "C78", "title": "Events and contract addresses reach the index unchanged", "statement": "For every call or creation that succeeds, the logs in its Ethereum receipt are exactly the logs the execution emitted, in order, with the same address, topics and data, and the receipt's contract address is the created contract.", "quantifier": "every execution outcome, list of logs, letter-case convention and following responses", "why_tests_cant": "text round trip for all addresses, hashes and data", "anchors": ["x/evm/types/log.go", "x/evm/keeper/msg_server.go", "indexer/utils.go:extractLogsAndContractAddr"]}
{"id": "C79", "title": "A message executes exactly the call it says, as its sender", "statement": "A call or create message runs exactly the call or creation it names (contract, input, amount, salt) in the name of its sender's account, or is refused; and for a signed Ethereum transaction this is what was signed.", "quantifier": "every message, sender, address spelling, amount, publisher list and signed transaction", "why_tests_cant": "all strings and numbers a message may carry", "anchors": ["x/evm/keeper/msg_server.go", "x/evm/keeper/address.go:convertToEVMAddress", "x/evm/keeper/txutils.go:ConvertEthereumTxToCosmosTx"]}
{"id": "C80", "title": "Stored data of different kinds, accounts, executions and blocks never mix", "statement": "No two different entries of the module's persistent store, of its transient store or of the index have the same key; listing an account's tokens, all tokens, the accounts destroyed or the logs written in an execution, or a block's transactions visits exactly these, and clearing a destroyed contract removes exactly its own records; a block's transactions and an execution's logs are visited in order.", "quantifier": "every address (of any length), key, execution number, log number, block number and position", "why_tests_cant": "all pairs of byte strings of any length, including ones that begin alike and numbers at byte boundaries", "anchors": ["x/evm/types/keys.go", "x/evm/keeper/keeper.go:NewKeeper", "indexer/keys.go", "x/evm/keeper/erc20.go:IterateAccountBalances", "x/evm/state/statedb.go:Commit", "indexer/reader.go:IterateBlockTxs"]}
{"id": "C81", "title": "A transaction pays once and executes once", "statement": "In any history of blocks: a rejected transaction changes nothing; a failed one costs its whole fee and nothing of its messages remains; a successful one pays its fee first, runs on what is left, and exactly the refund comes back to the account that paid, so that it has paid at least the share for the gas used and at most the fee; the fee collector ends up with exactly the fees less the refunds; and no included transaction is ever included a second time.", "quantifier": "every transaction (any number of signers, messages and fee denominations, with and without fee granter), state, execution and history", "why_tests_cant": "quantifies over all histories and all executions", "anchors": ["app/ante/ante.go", "app/ante/fee.go", "app/ante/sigverify.go", "app/posthandler/posthandler.go", "app/posthandler/gasrefund.go", "app/posthandler/sequence.go", "x/evm/ante/gas_prices.go"]}
{"id": "C82", "title": "A contract is created only where nobody is", "statement": "Whatever the caller, value and derivation of the address: a creation at an address that is a contract, a module, the shorthand of a longer address, an account with a known key or a sequence, or that has any stored word, never starts and changes nothing there; at any other address it starts exactly when the caller has the value; the constructor then finds nonce 1, no code, every storage word zero and the old balance plus the value, and nothing else changed; a creation that does not succeed leaves the address as it was; a contract is not created again at its address until its destruction is committed; every creation uses a new nonce; and the contract of an Ethereum transaction is at the address derived from its sender and signed nonce.", "quantifier": "every state, caller, address, value, constructor and history of executions", "why_tests_cant": "quantifies over all states, constructors and histories", "anchors": ["x/evm/state/statedb.go: GetStorageRoot, CreateContract", "x/evm/keeper/context.go: EVMCreateWithTracer, NextContractAddress", "x/evm/types/auth.go: IsEmptyAccount", "app/ante/sigverify.go"]}
{"id": "C83", "title": "The wrapper sends the transfer its caller asked for", "statement": "Numbers and addresses are written exactly (decimal text without leading zeros or garbage for every uint256, 0x and 40 digits for every address); a successful call of the ERC20 wrapper's wrap dispatches exactly one kind of IBC transfer: the wrapped amount of the wrapped token, over the given channel, from the wrapper to the given receiver, with the given timeout and no memo; and an ordinary call succeeds.", "quantifier": "every channel and receiver text, amount, timeout, callback id and address", "why_tests_cant": "quantifies over all texts a caller may pass and all 256-bit numbers", "anchors": ["x/evm/contracts/util/Strings.sol: toString, log10, toHexString", "x/evm/contracts/erc20_wrapper/ERC20Wrapper.sol: _ibc_transfer, wrap", "x/evm/precompiles/cosmos/contract.go: execute_cosmos"]}
{"id": "C84", "title": "Signature checks are paid for, and wallets are served alike", "statement": "For every transaction, however many signers and however deep its multisig keys: no signature is checked that was not charged to its gas, a transaction that cannot pay for its signatures is refused before any is checked, unsupported key types are refused at any depth, and one that passes was charged for exactly its signatures. A transaction signed by an Ethereum wallet is accepted wherever one signed by a Cosmos wallet is, including in the hook of a deposit.", "quantifier": "every list of signers, key tree, signature tree, price and gas limit", "why_tests_cant": "quantifies over trees of keys and signatures of any depth", "anchors": ["app/ante/sigverify.go: DefaultSigVerificationGasConsumer, consumeMultisignatureVerificationGas", "app/ante/verify.go: verifySignature", "app/ante/ante.go: NewAnteHandler, CreateAnteHandlerForOPinit", "app/ante/fee.go: GasFreeFeeDecorator.AnteHandle"]}
{"id": "C85", "title": "A fee denom that governance sets can be used", "statement": "A parameter update is accepted only if its fee denom names a token contract on which the chain can mint and burn; and after an accepted update, through any history of executions by arbitrary contract code, no execution is aborted for lack of these functions: an execution that sends no value to a blocked account never aborts, whatever anybody holds can be taken and, while the supply has room, given.", "quantifier": "every token state, denom, update and later history of executions", "why_tests_cant": "quantifies over all later executions", "anchors": ["x/evm/keeper/msg_server.go: UpdateParams, testFeeDenom", "x/evm/keeper/context_utils.go: LoadFee", "x/evm/state/statedb.go: AddBalance, SubBalance, SelfDestruct, Commit"]}
{"id": "C86", "title": "The memo of a transfer is obeyed as documented", "statement": "A transfer whose memo asks for a callback (id and contract) makes exactly that call, with that id, on acknowledgement and on timeout; a received transfer whose memo has a message for the hook makes exactly that contract call or is refused, and never becomes a plain transfer; a memo that is directed to the hook but is not well formed is refused, and the formats that the README documents are accepted.", "quantifier": "every memo text, packet, acknowledgement and chain state", "why_tests_cant": "quantifies over all JSON texts and all 2^64 callback ids; the failing ones are beyond 2^53", "anchors": ["app/ibc-hooks/util.go: validateAndParseMemo, jsonStringHasKey, validateReceiver", "app/ibc-hooks/message.go: HookData, AsyncCallback.UnmarshalJSON", "app/ibc-hooks/receive.go: handleOnReceive", "app/ibc-hooks/ack.go", "app/ibc-hooks/timeout.go", "app/ibc-hooks/README.md"]}
{"id": "C87", "title": "Every execution ends within its gas", "statement": "However contracts schedule further Cosmos messages, whose handlers execute contracts again and so on, a transaction, query or simulation ends: the number of nested executions is bounded by the gas limit it was given, and the gas consumed never passes that limit.", "quantifier": "every contract behaviour, message handler, gas limit and amount already consumed", "why_tests_cant": "quantifies over unbounded nesting of arbitrary contract code", "anchors": ["x/evm/keeper/context.go: computeGasLimit, EVMCallWithTracer, EVMCreateWithTracer, dispatchMessages", "x/evm/precompiles/cosmos/contract.go: ExtendedRun (execute_cosmos)", "x/evm/config/config.go: ContractSimulationGasLimit", "jsonrpc/backend/gas.go: EstimateGas"]}
{"id": "C88", "title": "Somebody else's token cannot spoil a balance listing", "statement": "Whatever code the other tokens in an account's listing have, a listing of balances is answered, and the balances of ordinary tokens in it are right.", "quantifier": "every list of tokens with arbitrary code, account, gas limit and store costs", "why_tests_cant": "quantifies over arbitrary token code and gas limits; a wrong balance would appear only near the gas limit", "anchors": ["x/evm/keeper/erc20.go: IterateAccountBalances, GetPaginatedBalances, balanceOf", "x/evm/keeper/context.go: EVMStaticCallWithTracer", "x/evm/keeper/erc20_stores.go: Register, RegisterStore", "x/bank/keeper/grpc_query.go: AllBalances, SpendableBalances"]}
{"id": "C89", "title": "A module's account stays the module's", "statement": "Once a module's account exists, no transfer, mint, burn, token call, registration, contract creation or destruction, or signer ever replaces or removes it, and using it never panics; and nobody but the module can cause another kind of account to lie at its address, which would make every payment to it fail for ever.", "quantifier": "every history of bank operations, token calls by anybody, store registrations, contract creations and destructions, nonces, keys and signers; every module and state", "why_tests_cant": "quantifies over all histories; the bad account has to be placed before the module's first use, an order no test tries", "anchors": ["x/evm/keeper/erc20_stores.go: RegisterStore", "x/evm/precompiles/erc20_registry/contract.go: ExtendedRun (register_erc20_store)", "x/bank/keeper/send.go: SendCoins", "x/bank/keeper/keeper.go: SendCoinsFromAccountToModule, SendCoinsFromModuleToModule, MintCoins, BurnCoins", "x/evm/keeper/address.go: convertToEVMAddress", "x/evm/state/statedb.go: CreateContract, CreateAccount, Commit"]}
{"id": "C90", "title": "An export lists every coin once, and nobody can prevent it", "statement": "The balances in an exported genesis list every account's coins exactly once, so that for every registered token they add up to its supply; everybody who holds a registered token is listed; and no transaction can make the export fail.", "quantifier": "every state, list of accounts of any address length, history of bank operations, token calls, contract creations and destructions", "why_tests_cant": "quantifies over all histories and kinds of accounts; tests export states with a few ordinary accounts", "anchors": ["x/bank/keeper/view.go: GetAccountsBalances, IterateAllBalances", "x/bank/keeper/genesis.go: ExportGenesis", "x/evm/keeper/erc20.go: IterateAccountBalances, GetPaginatedSupply", "x/evm/keeper/address.go: convertToEVMAddress", "x/evm/keeper/erc20_stores.go: RegisterStore", "x/evm/state/statedb.go: Commit", "app/export.go: ExportAppStateAndValidators"]}
{"id": "C91", "title": "A gas estimate is enough", "statement": "A transaction sent with the gas limit that eth_estimateGas answered for it succeeds, if the state has not changed in between, and every transaction that can succeed has an estimate.", "quantifier": "every program (gas needed, burned and refunded), transaction size, costs of the handlers, access list and simulation limit", "why_tests_cant": "quantifies over all programs and refunds; tests estimate a few calls without refunds", "anchors": ["jsonrpc/backend/gas.go: EstimateGas", "x/evm/keeper/context.go: computeGasLimit, EVMCallWithTracer", "x/evm/types/gas.go: CalGasUsed", "app/ante/fee.go: GasFreeFeeDecorator.AnteHandle, feeDeductionGasAmount", "app/posthandler/gasrefund.go: PostHandle", "x/evm/keeper/txutils.go: ConvertEthereumTxToCosmosTx"]}
{"id": "C92", "title": "No user's transaction stops the nodes", "statement": "Whatever transactions users send, a block of accepted transactions is taken by every node: finalizing it neither panics nor fails, and a node that is restarted continues with the next blocks.", "quantifier": "every transaction that passes the signature check (messages, memo, fee, signatures with or without public key), every block and position, every history of blocks and restarts", "why_tests_cant": "quantifies over all transactions and histories with restarts; tests index transactions made by the project's own helpers", "anchors": ["indexer/abci.go: ListenFinalizeBlock", "indexer/utils.go: extractLogsAndContractAddr, unpackData", "x/evm/keeper/txutils.go: ConvertCosmosTxToEthereumTx", "indexer/mempool.go: Insert", "app/indexer.go: setupIndexer", "app/ante/sigverify.go: SigVerificationDecorator.AnteHandle"]}
{"id": "C93", "title": "The receipt says what the transaction cost, and gas adds up over a block", "statement": "For every Ethereum transaction in a block, the payer's balance drops (apart from the value it moves) by the receipt's gasUsed times effectiveGasPrice, up to rounding to the fee token's units; gasUsed never exceeds the transaction's gas limit; cumulativeGasUsed is the running sum, and the block header's gasUsed is the sum over the block's receipts.", "quantifier": "every transaction (fee cap, gas limit, outcome, execution), every fee denom with any number of decimals, every refund ratio, every block", "why_tests_cant": "the amounts come out of three separately rounded conversions (fee, gas price, refund) spread over the ante handler, the post handler and the indexer, and must agree for all prices, limits and decimals", "anchors": ["indexer/abci.go ListenFinalizeBlock", "jsonrpc/backend/tx.go marshalReceipt", "app/posthandler/gasrefund.go PostHandle", "x/evm/keeper/txutils.go computeGasFeeAmount", "x/evm/ante/gas_prices.go AnteHandle"]}
{"id": "C94", "title": "What the precompiles tell a contract is true, and can be used", "statement": "to_cosmos_address and to_evm_address are inverse to each other on all accounts; a caller that names itself as to_cosmos_address says may sign execute_cosmos messages, and a scheduled message acts as the caller and nobody else; is_blocked_address and is_module_address are right about every address; to_denom and to_erc20 are inverse and name only tokens; register_erc20_store answers true only if the store is then registered.", "quantifier": "every account state reachable through any history of signers, creations and deployments, every caller, every address of any length, every text, every denom registry state", "why_tests_cant": "ranges over all histories of accounts with 20-byte and longer addresses; the answers are compared with what other parts of the chain then do with them", "anchors": ["x/evm/precompiles/cosmos/contract.go ExtendedRun, originAddress", "x/evm/precompiles/erc20_registry/contract.go ExtendedRun", "x/evm/keeper/erc20_stores.go RegisterStore, IsStoreRegistered", "x/evm/types/denom.go", "x/evm/types/auth.go"]}
{"id": "C95", "title": "Paging through a listing shows everything once, whatever happens in between", "statement": "A client that follows the next keys of the paged bank queries (AllBalances, SpendableBalances, TotalSupply) sees every token that was there when it started exactly once, with the amount at the time of its page, nothing untrue, and nothing twice, whatever transactions run between its requests and whatever limits it uses, in both directions; at one state it comes to an end, the pages together are exactly the coins held, and the count it can ask for is their number.", "quantifier": "every account, every sequence of chain states reached by any history of token operations between the requests, every sequence of limits, both directions", "why_tests_cant": "ranges over all interleavings of transactions with the pages of one client and over all sets of contract addresses", "anchors": ["x/evm/keeper/erc20.go GetPaginatedBalances, GetPaginatedSupply", "x/bank/keeper/grpc_query.go AllBalances, SpendableBalances, TotalSupply", "x/bank/keeper/keeper.go GetPaginatedTotalSupply"]}
{"id": "C96", "title": "The metadata of a token tell how to show its amounts", "statement": "The metadata the bank serves for a token without metadata set by governance describe that token, pass the chain's own validation, give the contract's name, symbol and decimals (one display unit is 10^decimals base units), and display names of different tokens are different.", "quantifier": "every contract answer (name, symbol, decimals), every denom", "why_tests_cant": "ranges over all denoms and all answers of contracts anybody can deploy", "anchors": ["x/evm/keeper/erc20.go GetMetadata", "x/bank/keeper/grpc_query.go DenomMetadata"]}
{"id": "C97", "title": "No inflation: the books balance over whole histories", "statement": "Starting from an empty chain, after any history of transactions (bank sends, module transfers, delegations, mints, burns, contract executions with value transfers and self-destructs, token creations, deployments, registrations, administration; any of them failing), every token's supply is the sum of its balances, the supply of a denom of the chain plus everything bank burns took back is at most what genesis and bank mints issued of it in transactions that went through (exactly that if no contract code ran), and no account holds more than that.", "quantifier": "every history of all-or-nothing transactions over all modelled entry points, every denom, token and account", "why_tests_cant": "an invariant over all histories and all contract code", "anchors": ["x/bank/keeper/keeper.go MintCoins, BurnCoins, SendCoinsFromModuleToModule, DelegateCoinsFromAccountToModule", "x/bank/keeper/msg_server.go Send", "x/evm/keeper/erc20.go MintCoins, BurnCoins, SendCoins", "x/evm/keeper/context.go EVMCall, EVMCreate", "x/evm/state/statedb.go AddBalance, SubBalance, SelfDestruct, Commit"]}
{"id": "C98", "title": "Nobody else can take your money", "statement": "Take any history of the chain and a holder in it (an account in use, or a longer address with its shorthand account) who has approved no spender. Whatever happens after that - sends, module transfers, delegations, mints, burns, contract executions with value transfers and self-destructs, token creations, deployments, registrations, administration, failing transactions - other than code run in the holder's own name or burns by the holder as a module, in every token the holder has at least what he had less what accepted messages of his own took. If none of them took anything, no balance of his shrank, every denom still means the same contract, he is still the holder and has still approved nobody. A holder that never ran contract code has approved nobody.", "quantifier": "every past, every future of all-or-nothing transactions over all modelled entry points, every holder, token and denom", "why_tests_cant": "a safety property over all histories, all contract code and all other accounts", "anchors": ["x/evm/keeper/address.go convertToEVMAddress", "x/bank/keeper/msg_server.go Send", "x/bank/keeper/send.go SendCoins", "x/bank/keeper/keeper.go DelegateCoinsFromAccountToModule, BurnCoins", "x/evm/keeper/erc20.go SendCoins, BurnCoins, MintCoins", "x/evm/contracts/erc20/ERC20.sol transferFrom, burnFrom, sudoTransfer, sudoBurn", "x/evm/keeper/context.go EVMCall"]}
{"id": "C99", "title": "A log query gives one answer, whatever the schedule", "statement": "An eth_getLogs or eth_getFilterLogs range query runs two goroutines over unbuffered channels while the index goes on changing. If what is indexed about the blocks of the range stays, then under every interleaving a client that waits gets exactly the logs, in order, and the error of a sequential walk (the answer of C40); a client that goes away gets a beginning of it, and never an incomplete answer without an error. However the index changes, the query never deadlocks, never returns nil logs, and after finitely many steps has answered with its goroutine ended.", "quantifier": "every interleaving of the two goroutines, of index changes and of the cancellation, every range and backend", "why_tests_cant": "quantifies over schedules; a test sees a few", "anchors": ["jsonrpc/namespaces/eth/filters/filter.go Logs, rangeLogsAsync, unindexedLogs", "jsonrpc/namespaces/eth/filters/api.go GetLogs, GetFilterLogs"]}
{"id": "C100", "title": "What a transaction can cost, on the token ledger", "statement": "Execute any transactions after any history from genesis. In every ERC20 token the holder of an address who has approved nobody loses at most his bill: the fees of the accepted transactions he pays for (as fee payer or granter) and what the messages of the successful ones take from him by name; who pays for nothing loses nothing. A rejected transaction changes nothing. One that fails in execution moves exactly its fee (in the chain's own denoms) from payer to fee collector and leaves every other balance, supply, allowance and denom alone. A successful one costs its payer at most the fee less the refund on top of what its messages take; the refund is at most the fee. Fees and refunds issue nothing.", "quantifier": "every history of transactions (bank messages, module transfers, EVM programs, token creation), outcome, payer, granter, fee list, gas and refund ratio", "why_tests_cant": "quantifies over histories; the fee, message and refund stages meet only in the token contracts' balances", "anchors": ["app/ante/ante.go NewAnteHandler", "app/ante/fee.go", "app/posthandler/gasrefund.go PostHandle", "x/evm/keeper/erc20.go SendCoins", "x/bank/keeper/keeper.go SendCoinsFromAccountToModule"]}
{"id": "C101", "title": "After a rollback JSON-RPC answers about the chain as it is", "statement": "Blocks are executed and the chain is rolled back (`mrollback`) in any order, after which the old blocks are executed again or others follow. JSON-RPC then answers about the chain as it is now: every block by number and by hash, with the hash of its predecessor, exactly its own transactions, receipts and logs, by hash, by position and in the block's list; and about nothing that is not in the chain. (Holds for everything about a block of the chain except that its lists may continue with transactions of dropped blocks of its height that had more transactions; exact if none had. Does not hold for the lists, nor for what was dropped: it stays served.)", "quantifier": "every history of blocks and rollbacks, every branch, every block content", "why_tests_cant": "quantifies over histories with rollbacks; stale entries show only for particular combinations of dropped and replacing blocks", "anchors": ["cmd/minitiad/rollback.go NewMultipleRollbackCmd", "indexer/abci.go ListenFinalizeBlock", "indexer/reader.go IterateBlockTxs", "jsonrpc/backend/block.go GetBlockByNumber"]}
{"id": "C102", "title": "A read reads what it names", "statement": "eth_getStorageAt takes the number of a slot in any hexadecimal spelling (capitals, 0x or not, leading zeros, an odd number of digits) and answers the 32 bytes stored in that slot of that contract; any text that is not such a number of at most 64 digits is refused, so no other slot is ever read. eth_getCode answers the contract's code byte for byte, and the gRPC queries answer the same for an address in hexadecimal or bech32. net_version of a chain `name-n` is `n`, the network id.", "quantifier": "all contracts' storage and code, all addresses, all strings given as key, all spellings of addresses, all chain ids", "why_tests_cant": "the strings a client may send are unbounded; a test tries a few spellings, and a read of the wrong slot looks like an ordinary value", "anchors": ["jsonrpc/namespaces/eth/api.go: GetStorageAt, GetCode, decodeHash", "jsonrpc/backend/eth.go: GetStorageAt, GetCode", "x/evm/keeper/query_server.go: State, Code", "jsonrpc/backend/net.go: Version"]}
{"id": "C103", "title": "The software upgrade changes two parameters and adds one contract, and a chain that is already upgraded accepts it", "statement": "When the plan \"0.5.7\" is executed and succeeds, the gas refund ratio becomes one half and the retention of block hashes becomes unlimited, every other parameter, the recorded ERC20 factory and the recorded block hashes stay as they are, exactly one contract (the ERC20 wrapper, built for the recorded factory) is created at an address nobody used and recorded, no balance changes, and of the rest of the state only the deployer's nonce advances; valid parameters stay valid; from then on no recorded block hash is ever removed; it succeeds whenever a factory is recorded, the wrapper's address is free and its constructor returns code; and executing the plan on a chain that already has the wrapper — because the upgrade ran before or because its genesis was made by this version — leaves the chain running.", "quantifier": "every state of the chain, every parameter set, every factory and wrapper code and constructor behaviour, every history of executions between a first deployment of the wrapper and the plan, every number of blocks after it", "why_tests_cant": "Whether the upgrade can be executed depends on the whole history of the state it meets, on which the tests (a fresh chain) say nothing; that nothing else changes quantifies over all addresses and keys.", "anchors": ["app/upgrade.go:RegisterUpgradeHandlers", "x/evm/keeper/genesis.go:Initialize", "x/evm/keeper/genesis.go:DeployERC20Factory", "x/evm/keeper/genesis.go:DeployERC20Wrapper", "x/evm/types/address.go:ERC20WrapperSalt"]}
{"id": "C104", "title": "The HTTP and the WebSocket endpoint of a node are interchangeable", "statement": "A client may send its requests to the HTTP or to the WebSocket endpoint of a node as it likes, changing between them: a transaction waiting for an earlier nonce is sent once the earlier one arrives over either endpoint, the pool methods show the same waiting transactions at both, one sender's submissions are processed one after the other, a filter made at one can be polled and removed at the other, and what each endpoint does for its own clients does not depend on the traffic at the other.", "quantifier": "every interleaving of submissions, broadcasts, queue evictions and chain events at the two endpoints, every number of transactions and senders, every sequence of filter requests", "why_tests_cant": "The two endpoints are started in one process and tests use one of them at a time; the claim ranges over all interleavings of requests at both.", "anchors": ["cmd/minitiad/root.go:173-196", "jsonrpc/jsonrpc.go:StartJSONRPC", "jsonrpc/backend/backend.go:NewJSONRPCBackend", "jsonrpc/namespaces/eth/filters/api.go:NewFilterAPI"]}
{"id": "C105", "title": "What a contract is told about its block and transaction is what JSON-RPC serves for them", "statement": "During every execution in a block, the instructions NUMBER, TIMESTAMP, COINBASE, CHAINID, GASLIMIT, BASEFEE, PREVRANDAO and BLOCKHASH give what eth_getBlockByNumber and eth_chainId answer for that block (number, timestamp, miner, gasLimit, baseFeePerGas, mixHash, hash), the same for all executions of the block; PREVRANDAO is a number not known otherwise; and ORIGIN is the account that started the transaction, in all executions of a transaction.", "quantifier": "every chain history (times, header hashes, prices, retention settings), every block, every execution in it with any caller, gas and moment, every pair of executions and of blocks up to 256 apart", "why_tests_cant": "Tests run one execution with one context and do not compare with the header the indexer makes later; the claim relates all executions of all blocks.", "anchors": ["x/evm/keeper/context.go:buildBlockContext", "x/evm/keeper/context.go:buildTxContext", "indexer/abci.go:ListenFinalizeBlock", "jsonrpc/backend/block.go:formatHeader", "x/evm/abci.go:PreBlock"]}
{"id": "C106", "title": "The receiver of an NFT gains nothing by acting while it is being called", "statement": "For every NFT contract of the chain and every history of calls — where the receivers of tokens may, while the contract is asking them to accept, call the contract again, make others call it, to any depth, and accept or refuse — the owners, balances, approvals and operators in the end are those of a history of some of the same calls, by the same callers, in the same order, whose receivers do nothing. In particular balances count tokens, nobody's token moves unless its owner, an operator or the approved account calls, and a minted token belongs to its receiver with the texts it was minted with, unless the receiver passes it on.", "quantifier": "all contracts, histories, receivers (any number of nested calls, any depth, any caller), tokens", "why_tests_cant": "Re-entrancy is a property of all trees of nested calls; a test writes one receiver with one behaviour.", "anchors": ["x/evm/contracts/ics721_erc721/ICS721ERC721.sol: mint, burn", "x/evm/contracts/erc721/ERC721.sol: safeTransferFrom, _safeMint, _update", "x/evm/contracts/utils/ERC721Utils.sol: checkOnERC721Received", "x/evm/keeper/erc721.go: Mints, Transfers"]}
{"id": "C107", "title": "A token that does not exist has no texts, and a new one has its own from the start", "statement": "At every moment at which contract code can look, a token of an NFT contract of the chain that exists has the URI and original id it was minted with, and one that does not exist has none.", "quantifier": "as C106: all contracts, histories, receivers (any number of nested calls, any depth, any caller), tokens", "why_tests_cant": "Re-entrancy is a property of all trees of nested calls; a test writes one receiver with one behaviour.", "anchors": ["x/evm/contracts/ics721_erc721/ICS721ERC721.sol: mint, burn", "x/evm/contracts/erc721/ERC721.sol: safeTransferFrom, _safeMint, _update", "x/evm/contracts/utils/ERC721Utils.sol: checkOnERC721Received", "x/evm/keeper/erc721.go: Mints, Transfers"]}
{"id": "C108", "title": "NFT contracts keep their books", "statement": "For every NFT contract of the chain and after every history of calls by anyone, reverted ones included: the balance of every account is the number of tokens it owns (as a 256-bit number); the owner of a token changes only by a call of its owner, of an operator of the owner or of the account approved for it, or when the contract's owner mints a token that does not exist; operators and approvals are given only by the account they act for (or, for a token, by an operator of its owner). The module answers queries for balances and owners from the same table.", "quantifier": "as C48: every class, list of token ids, history", "why_tests_cant": "invariants over all histories", "anchors": ["x/evm/keeper/erc721.go", "x/evm/types/collection.go"]}
{"id": "C109", "title": "Transfers, burns and mints of NFTs by the chain are exact", "statement": "For every class with a contract: a successful transfer moves exactly the listed tokens from the sender to the receiver, a successful burn destroys exactly the listed tokens, which were the owner's or approved to it, a successful mint creates exactly the listed tokens, none of which existed, for the receiver and with the given texts; in all three the listed tokens are pairwise different (for burns and mints) and no other token of any class changes hands. Each succeeds when the tokens are as required and the receiver accepts.", "quantifier": "as C48: every class, list of token ids, history", "why_tests_cant": "invariants over all histories", "anchors": ["x/evm/keeper/erc721.go", "x/evm/types/collection.go"]}
{"id": "C110", "title": "An NFT class keeps its own contract", "statement": "In every reachable state two created classes never share a contract, the contract of a class is named by that class alone, its code belongs to the chain, and the class keeps it through every later event; creating or updating a class changes no existing contract, no other class and no other URI.", "quantifier": "as C48: every class, list of token ids, history", "why_tests_cant": "invariants over all histories", "anchors": ["x/evm/keeper/erc721.go", "x/evm/types/collection.go"]}
{"id": "C111", "title": "The Cosmos messages of a contract are signed by it alone", "statement": "Every Cosmos message that is dispatched for an execution was scheduled by some contract outside a static call, and every one of its signers is that contract's own address; a static call schedules nothing; a failed execution dispatches nothing, and a successful one dispatches all its messages in order and succeeds exactly if every one of them does.", "quantifier": "as C13: every caller, message, signer set, call tree with reverts", "why_tests_cant": "authorization over all messages and all call trees", "anchors": ["x/evm/precompiles/cosmos/contract.go:ExtendedRun", "x/evm/keeper/context.go:dispatchMessages", "x/evm/keeper/context.go:EVMCallWithTracer"]}
{"id": "C112", "title": "The EVM creates contracts only at free addresses, with fresh account numbers", "statement": "For every state: the EVM's own creation of a contract succeeds exactly when there is no account at the address or a plain one without public key and with sequence 0, which keeps its number; every other account is untouched. Over every history of the EVM's operations no two addresses share an account number.", "quantifier": "as C10: every sequence of account creations, contract creations and code installations", "why_tests_cant": "invariant over all histories", "anchors": ["x/evm/state/statedb.go:CreateContract", "x/evm/state/statedb.go:SetCode", "x/evm/state/statedb.go:CreateAccount", "x/evm/types/auth.go:IsEmptyAccount"]}
{"id": "C113", "title": "Who an address is for the EVM never changes", "statement": "An address of 20 bytes is its own EVM address. Once a longer address has acted as signer, every later conversion of it gives the same EVM address and changes nothing; every other longer address with that shorthand is refused, and so is one whose shorthand is the address of an account in use; a conversion changes at most the account at the address it answers, and only if nobody used it.", "quantifier": "as C30: every sequence of address registrations of any lengths >= 20", "why_tests_cant": "invariant over all histories and all address pairs", "anchors": ["x/evm/keeper/address.go:convertToEVMAddress"]}
{"id": "C114", "title": "The cached index store reads its own writes", "statement": "After every history of reads, writes, deletes and flushes, one after another, and whatever the cache evicts or refuses in between: a read returns what the last write of the key that answered without error stored (nothing if that was a delete), existence checks agree with reads, and after a flush the database itself holds the contents.", "quantifier": "as C37: every sequence of sets, deletes, gets, flushes and evictions", "why_tests_cant": "all interleavings of eviction and operations", "anchors": ["indexer/store.go:CacheStore"]}
{"id": "C115", "title": "Receipts, block logs and log filters agree", "statement": "For every block that was indexed: the receipt of a transaction carries exactly the logs the block's list has for it, with the same numbers; no two logs of the block have the same transaction and number; the bloom filter of the header never hides a log that matches a query, for every way of choosing the bits; and eth_getFilterLogs answers like eth_getLogs with the criteria of the filter.", "quantifier": "as C39 and C40: every block", "why_tests_cant": "arbitrary block contents", "anchors": ["indexer/abci.go:ListenFinalizeBlock", "jsonrpc/backend/filters.go:GetLogsByHeight", "jsonrpc/namespaces/eth/filters/filter.go:Logs", "jsonrpc/namespaces/eth/filters/filter.go:filterLogs", "jsonrpc/namespaces/eth/filters/filter.go:bloomFilter"]}
{"id": "C116", "title": "Transactions leave the queue of a node in order, once", "statement": "In every interleaving of submissions: the transactions broadcast for one submission are its sender's, with consecutive nonces from the account's sequence as read then, up to the first refusal; none is broadcast twice; as long as nothing else changes the account all broadcasts for a sender together are in nonce order without gaps; a stale nonce is refused and changes nothing; and a submission that returns without error leaves nothing queued that could be sent next.", "quantifier": "as C41: every arrival order of nonces, every broadcast outcome", "why_tests_cant": "all arrival interleavings", "anchors": ["jsonrpc/backend/tx.go:SendTx"]}
{"id": "C117", "title": "Every event reaches every installed filter once, in order", "statement": "For every schedule of the node's goroutines: the items a filter or subscription has returned, followed by those on the way, are exactly those due for the events since it was installed, in order; a poll returns everything collected and nothing twice; an uninstalled filter stays uninstalled; the event loop is never stuck; and no event is made up or handed out twice.", "quantifier": "as C42: every sequence of install/poll/event/tick/uninstall operations", "why_tests_cant": "timing interleavings", "anchors": ["jsonrpc/namespaces/eth/filters/api.go"]}
{"id": "C118", "title": "A fee history is complete, in order, and computed as documented", "statement": "For every request and every schedule of its workers: it ends, with one row for every block of the range or up to the first missing one, each in its place; it is rejected exactly for bad percentiles or a range beyond the head, and the range is the requested one within the limits; each row has the block's base fee and gas ratio, the next base fee moves by at most an eighth in the direction of the gas used, rewards are those at their percentiles of the gas, monotone in the percentile, and zero for an empty block; and no worker panics when every transaction has a receipt.", "quantifier": "as C43: every request, head, goroutine schedule", "why_tests_cant": "schedules and ranges", "anchors": ["jsonrpc/backend/feehistory.go:FeeHistory", "jsonrpc/backend/feehistory.go:processBlock", "jsonrpc/backend/feehistory.go:resolveBlockRange"]}
{"id": "C119", "title": "Bank permissions and restrictions are obeyed", "statement": "For every state and history: a send is decided by exactly the restrictions in force, in order; every transfer between modules and accounts, delegations apart, obeys them and pays the recipient they chose, and payouts to blocked accounts are refused; only modules with the permission mint, burn or take delegations, and exactly the coins named; only the authority changes send switches, parameters and metadata, and nothing else changes with them; and an allowed, covered MsgSend is accepted.", "quantifier": "as C44: every configuration and message", "why_tests_cant": "decision logic over all configurations", "anchors": ["x/bank/keeper/send.go", "x/bank/keeper/keeper.go", "x/bank/keeper/msg_server.go"]}
{"id": "C120", "title": "Wrapped tokens can be redeemed", "statement": "In every state reached while the wrapper sends away nothing but wrapped tokens and wrapped tokens are not wrapped again (C49 and C83 say what happens otherwise): a holder who has approved the wrapper can redeem any amount of a wrapped token up to the balance that converts to at least one unit, which burns exactly that amount and pays exactly the converted amount; a successful wrap takes exactly the amount from the user and mints exactly the converted amount; what is lost by converting to fewer decimals is the remainder modulo the factor and nothing else.", "quantifier": "as C49: every sequence of wrap/unwrap/callback operations, every decimals", "why_tests_cant": "invariant over all histories with rounding", "anchors": ["x/evm/contracts/erc20_wrapper/ERC20Wrapper.sol"]}
{"id": "C121", "title": "Block methods answer about the block asked for", "statement": "For every node and every moment at which it commits another block: the methods about blocks answer about the block their tag meant when the request arrived, a block asked for by its hash is the block with that hash, a number below the head is answered from the state of that block however far the node moves on meanwhile, and a request that names no block means the latest one.", "quantifier": "as C51: every block number/tag and head", "why_tests_cant": "all tags and methods", "anchors": ["jsonrpc/backend/block.go:resolveBlockNr", "jsonrpc/backend/tx.go"]}
{"id": "C122", "title": "However a number or an address is written in hex, it is read as that number or address", "statement": "For every address, storage key and slot: each way of writing it in hexadecimal (capitals or not, with or without 0x, and for numbers with or without leading zeros and with an odd number of digits) is read as it, by messages, access lists and storage reads alike; anything that is no hexadecimal number, or too long, is refused by storage reads; the checksummed and the bech32 form of an address are read back as it.", "quantifier": "as C52 and C79 and C102: every address string", "why_tests_cant": "all strings", "anchors": ["x/evm/types/address.go:ContractAddressFromString", "app/ibc-hooks/receive.go", "x/evm/keeper/msg_server.go", "x/evm/keeper/address.go:convertToEVMAddress", "x/evm/keeper/txutils.go:ConvertEthereumTxToCosmosTx", "jsonrpc/namespaces/eth/api.go: GetStorageAt, GetCode, decodeHash", "jsonrpc/backend/eth.go: GetStorageAt, GetCode", "x/evm/keeper/query_server.go: State, Code", "jsonrpc/backend/net.go: Version"]}
{"id": "C123", "title": "Numbers survive being text", "statement": "For every text and number: exactly the texts of the specification are read as amounts, with exactly these values, signed or not; an amount written the way the transfer application writes it is read alike in base 10 and in base 0; the contract library's decimal text of every 256-bit number, and its hex text of every address, are right to the last digit, and fixed-length hex text is refused exactly when the value does not fit.", "quantifier": "as C58 and C83: every packet, token origin, and every accepted spelling of the contract address", "why_tests_cant": "Tests use one hexadecimal contract address and one voucher denom; the address and denom spellings form an unbounded set.", "anchors": ["app/ibc-hooks/receive.go:onRecvIcs20Packet", "app/ibc-hooks/receive.go:approveERC20", "x/evm/types/address.go:ContractAddressFromString", "x/evm/contracts/util/Strings.sol: toString, log10, toHexString", "x/evm/contracts/erc20_wrapper/ERC20Wrapper.sol: _ibc_transfer, wrap", "x/evm/precompiles/cosmos/contract.go: execute_cosmos"]}
{"id": "C124", "title": "The sender locks of a node are sound", "statement": "For every schedule of submissions at one endpoint: at most one goroutine of a sender is inside, no lock operation panics, a goroutine waits only for one that can go on (senders do not block each other and there is no deadlock), and the table of locks has no entry for a sender nobody works for.", "quantifier": "as C60: every number of concurrent submissions, every sender, every interleaving", "why_tests_cant": "Interleavings of an unbounded number of goroutines.", "anchors": ["jsonrpc/backend/backend.go:acquireAccMut", "jsonrpc/backend/backend.go:releaseAccMut"]}
{"id": "C125", "title": "JSON is read as JSON says", "statement": "For every text: the memo reader accepts exactly the JSON texts and returns the value they denote, which is unique; the message reader reads the object that the front of the text denotes, and takes a text for a transfer exactly when that object's members say so, for one transfer only; a memo's instructions are accepted exactly if they have the documented shape, say exactly what the specification reads from them, and values whose numbers are natural up to 2^53 survive re-encoding.", "quantifier": "as C83 and C86: every channel and receiver text, amount, timeout, callback id and address", "why_tests_cant": "quantifies over all texts a caller may pass and all 256-bit numbers", "anchors": ["x/evm/contracts/util/Strings.sol: toString, log10, toHexString", "x/evm/contracts/erc20_wrapper/ERC20Wrapper.sol: _ibc_transfer, wrap", "x/evm/precompiles/cosmos/contract.go: execute_cosmos", "app/ibc-hooks/util.go: validateAndParseMemo, jsonStringHasKey, validateReceiver", "app/ibc-hooks/message.go: HookData, AsyncCallback.UnmarshalJSON", "app/ibc-hooks/receive.go: handleOnReceive", "app/ibc-hooks/ack.go", "app/ibc-hooks/timeout.go", "app/ibc-hooks/README.md"]}
{"id": "C126", "title": "Fees are collected before, and refunded after, exactly", "statement": "For every transaction and history: the account that pays is the granter named, or else the payer; a rejected transaction changes nothing; one is included only with a sufficient fee (or in the free lane), every signer's current sequence and a payer who can pay; a failed one pays its whole fee once and leaves nothing else; a successful one pays first, runs, and is paid back exactly the refund, in the end at least the share for the gas it used and at most the fee; the refund never makes it fail as long as execution leaves the collector what was paid; and the collector ends up with exactly the fees less the refunds.", "quantifier": "as C81: every transaction (any number of signers, messages and fee denominations, with and without fee granter), state, execution and history", "why_tests_cant": "quantifies over all histories and all executions", "anchors": ["app/ante/ante.go", "app/ante/fee.go", "app/ante/sigverify.go", "app/posthandler/posthandler.go", "app/posthandler/gasrefund.go", "app/posthandler/sequence.go", "x/evm/ante/gas_prices.go"]}
{"id": "C127", "title": "Signature checks are charged for wherever gas is counted", "statement": "For every transaction whose fee is not exactly one coin of the fee denom (what happens to the others is C45 and C84), however many signers and however deep its multisig keys: no signature is checked that was not charged to its gas meter, an accepted one was charged for exactly its checks, only supported key types are accepted, the checks made are covered by what fee deduction left of the gas limit, a transaction that cannot pay for its signatures is refused before any is checked, and one ordinary signature of either kind of wallet costs one check.", "quantifier": "as C84: every list of signers, key tree, signature tree, price and gas limit", "why_tests_cant": "quantifies over trees of keys and signatures of any depth", "anchors": ["app/ante/sigverify.go: DefaultSigVerificationGasConsumer, consumeMultisignatureVerificationGas", "app/ante/verify.go: verifySignature", "app/ante/ante.go: NewAnteHandler, CreateAnteHandlerForOPinit", "app/ante/fee.go: GasFreeFeeDecorator.AnteHandle"]}
{"id": "C128", "title": "A transfer with a contract call is never taken for a plain one", "statement": "For every received packet whose memo has a message for the hook: it is refused with nothing done, or the transfer goes to the derived sender and not to the receiver of the packet; and if it is acknowledged with success the contract named was called with the named input and value, as the derived sender.", "quantifier": "as C86: every memo text, packet, acknowledgement and chain state", "why_tests_cant": "quantifies over all JSON texts and all 2^64 callback ids; the failing ones are beyond 2^53", "anchors": ["app/ibc-hooks/util.go: validateAndParseMemo, jsonStringHasKey, validateReceiver", "app/ibc-hooks/message.go: HookData, AsyncCallback.UnmarshalJSON", "app/ibc-hooks/receive.go: handleOnReceive", "app/ibc-hooks/ack.go", "app/ibc-hooks/timeout.go", "app/ibc-hooks/README.md"]}
{"id": "C129", "title": "A balance listing that is answered is right", "statement": "Whatever the code of other tokens in an account's listing does and however little gas there is: a listing that is answered has one entry per token, in order, and every ordinary token's entry is its balance; without zero entries, the ordinary tokens with a balance are listed with it and those without are not.", "quantifier": "as C88: every list of tokens with arbitrary code, account, gas limit and store costs", "why_tests_cant": "quantifies over arbitrary token code and gas limits; a wrong balance would appear only near the gas limit", "anchors": ["x/evm/keeper/erc20.go: IterateAccountBalances, GetPaginatedBalances, balanceOf", "x/evm/keeper/context.go: EVMStaticCallWithTracer", "x/evm/keeper/erc20_stores.go: Register, RegisterStore", "x/bank/keeper/grpc_query.go: AllBalances, SpendableBalances"]}
{"id": "C130", "title": "A module account that exists stays and works", "statement": "Where a module's account exists, no history of transfers, mints, burns, token calls, registrations, creations, destructions and signatures replaces or removes it, and using it never panics; where an account of another kind lies at a module's address, every use of the module's account panics after every further history.", "quantifier": "as C89: every history of bank operations, token calls by anybody, store registrations, contract creations and destructions, nonces, keys and signers; every module and state", "why_tests_cant": "quantifies over all histories; the bad account has to be placed before the module's first use, an order no test tries", "anchors": ["x/evm/keeper/erc20_stores.go: RegisterStore", "x/evm/precompiles/erc20_registry/contract.go: ExtendedRun (register_erc20_store)", "x/bank/keeper/send.go: SendCoins", "x/bank/keeper/keeper.go: SendCoinsFromAccountToModule, SendCoinsFromModuleToModule, MintCoins, BurnCoins", "x/evm/keeper/address.go: convertToEVMAddress", "x/evm/state/statedb.go: CreateContract, CreateAccount, Commit"]}
{"id": "C131", "title": "An export lists what the queries report", "statement": "A successful export has one entry for every account that owns anything, with exactly the coins the balance query reports, and no others; and as long as no contract is destroyed everybody who ever received a registered token has an account and so appears.", "quantifier": "as C90: every state, list of accounts of any address length, history of bank operations, token calls, contract creations and destructions", "why_tests_cant": "quantifies over all histories and kinds of accounts; tests export states with a few ordinary accounts", "anchors": ["x/bank/keeper/view.go: GetAccountsBalances, IterateAllBalances", "x/bank/keeper/genesis.go: ExportGenesis", "x/evm/keeper/erc20.go: IterateAccountBalances, GetPaginatedSupply", "x/evm/keeper/address.go: convertToEVMAddress", "x/evm/keeper/erc20_stores.go: RegisterStore", "x/evm/state/statedb.go: Commit", "app/export.go: ExportAppStateAndValidators"]}
{"id": "C132", "title": "Paging shows every token once while the chain goes on", "statement": "A client that follows the next keys with any limits, in either direction, while anything happens on the chain in between, sees every token the account held (every token registered) when it started exactly once, with the balance (supply) of the time the page was made, and nothing untrue; at one state the pages together list exactly the coins held, paging ends, and the count is the number of entries.", "quantifier": "as C95: every account, every sequence of chain states reached by any history of token operations between the requests, every sequence of limits, both directions", "why_tests_cant": "ranges over all interleavings of transactions with the pages of one client and over all sets of contract addresses", "anchors": ["x/evm/keeper/erc20.go GetPaginatedBalances, GetPaginatedSupply", "x/bank/keeper/grpc_query.go AllBalances, SpendableBalances, TotalSupply", "x/bank/keeper/keeper.go GetPaginatedTotalSupply"]}
{"id": "C133", "title": "After a rollback nothing is made up", "statement": "For every rollback and whatever is executed again afterwards: exactly the first blocks are left; a block is served as if there had been no rollback unless a dropped block of its height had more transactions; and whatever is served was executed once.", "quantifier": "as C101: every history of blocks and rollbacks, every branch, every block content", "why_tests_cant": "quantifies over histories with rollbacks; stale entries show only for particular combinations of dropped and replacing blocks", "anchors": ["cmd/minitiad/rollback.go NewMultipleRollbackCmd", "indexer/abci.go ListenFinalizeBlock", "indexer/reader.go IterateBlockTxs", "jsonrpc/backend/block.go GetBlockByNumber"]}
{"id": "C134", "title": "The upgrade does what it says and no more", "statement": "For every state: an upgrade that succeeds sets the refund ratio to one half and the retention to all, leaves every other parameter, the factory and recorded hashes alone, creates one contract at an unused address, moves no coins and touches no other address but the deployer's nonce; valid parameters stay valid; no recorded block hash is ever removed afterwards; without a recorded factory it fails, and with one, an unused address and a constructor that returns code it succeeds.", "quantifier": "as C103: every state of the chain, every parameter set, every factory and wrapper code and constructor behaviour, every history of executions between a first deployment of the wrapper and the plan, every number of blocks after it", "why_tests_cant": "Whether the upgrade can be executed depends on the whole history of the state it meets, on which the tests (a fresh chain) say nothing; that nothing else changes quantifies over all addresses and keys.", "anchors": ["app/upgrade.go:RegisterUpgradeHandlers", "x/evm/keeper/genesis.go:Initialize", "x/evm/keeper/genesis.go:DeployERC20Factory", "x/evm/keeper/genesis.go:DeployERC20Wrapper", "x/evm/types/address.go:ERC20WrapperSalt"]}
{"id": "C135", "title": "Contracts are told the number, time and chain that JSON-RPC serves", "statement": "Every execution of a block, whatever its caller, gas and moment, is told the number, time, beneficiary and chain id that JSON-RPC serves for that block; later executions are not told an earlier time if consensus time does not go back; ORIGIN is the account the message is executed for; PREVRANDAO is the block's header hash, which the following 255 blocks can read with BLOCKHASH, and zero outside a block.", "quantifier": "as C105: every chain history (times, header hashes, prices, retention settings), every block, every execution in it with any caller, gas and moment, every pair of executions and of blocks up to 256 apart", "why_tests_cant": "Tests run one execution with one context and do not compare with the header the indexer makes later; the claim relates all executions of all blocks.", "anchors": ["x/evm/keeper/context.go:buildBlockContext", "x/evm/keeper/context.go:buildTxContext", "indexer/abci.go:ListenFinalizeBlock", "jsonrpc/backend/block.go:formatHeader", "x/evm/abci.go:PreBlock"]}
{"id": "C136", "title": "Each endpoint of a node is sound by itself", "statement": "Whatever happens at the HTTP and the WebSocket endpoint of a node, in every interleaving, each backend is in a state it could have reached alone with the other's transactions reaching the chain another way; over each no transaction is handed to the chain twice, and what is handed over for one submission has consecutive nonces.", "quantifier": "as C104: every interleaving of submissions, broadcasts, queue evictions and chain events at the two endpoints, every number of transactions and senders, every sequence of filter requests", "why_tests_cant": "The two endpoints are started in one process and tests use one of them at a time; the claim ranges over all interleavings of requests at both.", "anchors": ["cmd/minitiad/root.go:173-196", "jsonrpc/jsonrpc.go:StartJSONRPC", "jsonrpc/backend/backend.go:NewJSONRPCBackend", "jsonrpc/namespaces/eth/filters/api.go:NewFilterAPI"]}
{"id": "C137", "title": "What a gas estimate is", "statement": "For every program: it is estimated exactly if the simulation limit gives it what it needs, and the answer is the gas of a simulated transaction; a transaction succeeds with a gas limit exactly if the limit covers what runs before the machine together with what the program needs and the whole of what is charged; and an accepted transaction without access list carries exactly the message that is simulated for its sender, recipient, amount and data.", "quantifier": "as C91: every program (gas needed, burned and refunded), transaction size, costs of the handlers, access list and simulation limit", "why_tests_cant": "quantifies over all programs and refunds; tests estimate a few calls without refunds", "anchors": ["jsonrpc/backend/gas.go: EstimateGas", "x/evm/keeper/context.go: computeGasLimit, EVMCallWithTracer", "x/evm/types/gas.go: CalGasUsed", "app/ante/fee.go: GasFreeFeeDecorator.AnteHandle, feeDeductionGasAmount", "app/posthandler/gasrefund.go: PostHandle", "x/evm/keeper/txutils.go: ConvertEthereumTxToCosmosTx"]}
{"id": "C138", "title": "Receipts and headers add up", "statement": "For every block: each receipt reports the gas counted for its transaction, the price it named and the sum of the gas reported up to it; if nothing overran its limit or the block's, the header says exactly the gas of the other transactions more; and a successful Ethereum transaction pays its fee cap for its gas limit less the refunded part of the unused gas, and less than three base units more.", "quantifier": "as C93: every transaction (fee cap, gas limit, outcome, execution), every fee denom with any number of decimals, every refund ratio, every block", "why_tests_cant": "the amounts come out of three separately rounded conversions (fee, gas price, refund) spread over the ante handler, the post handler and the indexer, and must agree for all prices, limits and decimals", "anchors": ["indexer/abci.go ListenFinalizeBlock", "jsonrpc/backend/tx.go marshalReceipt", "app/posthandler/gasrefund.go PostHandle", "x/evm/keeper/txutils.go computeGasFeeAmount", "x/evm/ante/gas_prices.go AnteHandle"]}
{"id": "C139", "title": "What the precompiles say about addresses and denoms leads back", "statement": "For every state and history: an EVM address turned into text and back is the same; the address answered for a text is that of exactly those bytes; every signer of a scheduled message has the calling contract as its EVM identity; once an address has signed, the blocked-address query about its EVM address answers for it; and the denom of a contract leads back to the contract, a registered denom to itself.", "quantifier": "as C94: every account state reachable through any history of signers, creations and deployments, every caller, every address of any length, every text, every denom registry state", "why_tests_cant": "ranges over all histories of accounts with 20-byte and longer addresses; the answers are compared with what other parts of the chain then do with them", "anchors": ["x/evm/precompiles/cosmos/contract.go ExtendedRun, originAddress", "x/evm/precompiles/erc20_registry/contract.go ExtendedRun", "x/evm/keeper/erc20_stores.go RegisterStore, IsStoreRegistered", "x/evm/types/denom.go", "x/evm/types/auth.go"]}
{"id": "C140", "title": "A bank genesis is imported exactly", "statement": "A bank genesis that is accepted credits every account with exactly the listed coins on top of what the ledger holds, raises every supply by exactly the listed total, states the right total if it states one, and sets exactly the listed switches and metadata; a chain restarted from an export has the exported default, switches and metadata; and the send-enabled query reports exactly the denoms with an entry, with its value.", "quantifier": "as C66 and C67: every genesis document, every ledger state exported", "why_tests_cant": "ranges over all genesis contents and all histories before an export; depends on the order of module imports", "anchors": ["x/bank/keeper/genesis.go:InitGenesis", "x/bank/keeper/genesis.go:ExportGenesis", "app/modules.go:orderInitBlockers", "x/evm/keeper/erc20.go:GetPaginatedSupply", "x/bank/keeper/view.go:IterateAllBalances", "x/bank/keeper/grpc_query.go", "x/evm/keeper/erc20.go:GetPaginatedBalances"]}
{"id": "C141", "title": "When the quoted gas price is enough, and what a wallet can afford", "statement": "For every price, number of decimals and amount of gas: a fee cap worth at least the configured price is enough for the mempool, and the quoted price is enough for every gas limit exactly when it is worth the configured price; of a value a transaction can carry exactly, an account has enough exactly if eth_getBalance is at least that value, and paying it lowers eth_getBalance by exactly it.", "quantifier": "as C76 and C74: every gas price configuration, number of decimals of the fee token, fee cap and gas limit", "why_tests_cant": "rounding (two different conversions) over all prices, decimals and gas limits", "anchors": ["jsonrpc/backend/gas.go:GasPrice", "x/evm/keeper/txutils.go:computeGasFeeAmount", "app/ante/ante.go", "app/keepers/gas_price.go:GasPrice", "jsonrpc/backend/eth.go:GetBalance", "x/evm/types/decimals.go", "x/evm/keeper/txutils.go:ConvertEthereumTxToCosmosTx", "x/evm/state/statedb.go:GetBalance"]}
{"id": "C142", "title": "Code, network version and token metadata are those of what was asked", "statement": "For every contract eth_getCode and the code query answer its code byte for byte, by either form of its address; net_version of a chain called name-n is n and of any other 1; and the metadata of a denom describe that denom, with the contract's name and symbol and amounts counted in the denom itself, exactly if the contract answers.", "quantifier": "as C102 and C96: all contracts' storage and code, all addresses, all strings given as key, all spellings of addresses, all chain ids", "why_tests_cant": "the strings a client may send are unbounded; a test tries a few spellings, and a read of the wrong slot looks like an ordinary value", "anchors": ["jsonrpc/namespaces/eth/api.go: GetStorageAt, GetCode, decodeHash", "jsonrpc/backend/eth.go: GetStorageAt, GetCode", "x/evm/keeper/query_server.go: State, Code", "jsonrpc/backend/net.go: Version", "x/evm/keeper/erc20.go GetMetadata", "x/bank/keeper/grpc_query.go DenomMetadata"]}
{"id": "C143", "title": "A bank query about one denom is answered, and the answers fit together", "statement": "For every readable address and valid denom the bank queries about one denom are answered: the balance and the spendable balance of the address in the token the denom stands for and that token's supply, and zero if the denom stands for no token; different denoms are different coins; a token has a supply exactly if its supply is not zero.", "quantifier": "all chain states after any history, all address and denom texts", "why_tests_cant": "Depends on the denom maps, the registry and the deployed contracts, all of which any history can build up; a test picks a few denoms.", "anchors": ["x/bank/keeper/grpc_query.go:Balance", "x/bank/keeper/grpc_query.go:SpendableBalanceByDenom", "x/bank/keeper/grpc_query.go:SupplyOf", "x/bank/keeper/keeper.go:GetSupply", "x/evm/keeper/erc20.go:GetBalance", "x/evm/keeper/erc20.go:GetSupply", "x/evm/keeper/erc20.go:HasSupply"]}
{"id": "C144", "title": "A bank query about one denom never answers wrongly", "statement": "Whatever is asked, an answer of Balance is the balance of the address in the token the denom stands for (zero if the denom is not in use), SpendableBalanceByDenom answers the same and SupplyOf answers the token's supply; every denom that stands for a token is answered; the answers agree with the listing of all balances; the balances of all addresses add up to the supply answered; and a bank send can move exactly up to what is answered.", "quantifier": "all chain states after any history, all address and denom texts, all amounts", "why_tests_cant": "The listing, the single answers, the supply and the sends read the same ledger through different paths, over every history.", "anchors": ["x/bank/keeper/grpc_query.go:Balance", "x/bank/keeper/grpc_query.go:SpendableBalanceByDenom", "x/bank/keeper/grpc_query.go:SupplyOf", "x/bank/keeper/view.go:GetBalance", "x/bank/keeper/view.go:HasBalance", "x/bank/keeper/view.go:SpendableCoin", "x/evm/keeper/erc20.go:GetBalance"]}
{"id": "C145", "title": "A revert is reported as a revert, with its data", "statement": "If a contract call or creation reverts, every way of asking for it (message, Call query, eth_call, eth_estimateGas) fails, and the revert data can be read out of the error the caller gets, whatever reason the data carries and whatever other layers put in front of the text; different data give different errors; an error that reads as a revert with some data is one; a success is never reported as a failure nor a failure as a success; and JSON-RPC reports it the way Ethereum clients expect, with error code 3 and the data in the error object.", "quantifier": "all revert data, all reasons, all amounts of gas left over, all texts other layers put in front", "why_tests_cant": "The data is passed on inside a text that also holds a reason chosen by the contract and words added by every layer; a test shows that the text looks right for one reason, not that it can be read back for all of them.", "anchors": ["x/evm/types/errors.go:NewRevertError", "x/evm/keeper/context.go:EVMCallWithTracer", "x/evm/keeper/context.go:EVMCreateWithTracer", "x/evm/keeper/context.go:EVMStaticCallWithTracer", "x/evm/keeper/msg_server.go:Call", "x/evm/keeper/query_server.go:Call", "jsonrpc/backend/eth.go:Call", "jsonrpc/backend/gas.go:EstimateGas"]}
{"id": "C146", "title": "The answer to a contract's oracle query is the answer to its own query", "statement": "Whatever other executions on the node query at the same time (block execution, eth_call, estimates, CheckTx), in whatever order they proceed, query_cosmos answers a contract what the oracle answers to the contract's own text on the state the contract runs on, so all nodes executing a block see the same answers; and nothing but the documented oracle queries is answered.", "quantifier": "all numbers of concurrent executions, all schedules, all paths, texts and states", "why_tests_cant": "Depends on how executions in one process interleave; no test enumerates schedules.", "anchors": ["x/evm/precompiles/cosmos/contract.go:ExtendedRun", "x/evm/types/query_cosmos.go:ConvertProtoToJSON", "x/evm/types/query_cosmos.go:ConvertJSONToProto", "x/evm/types/query_cosmos.go:DefaultQueryCosmosWhitelist"]}
{"id": "C147", "title": "Success and failure are never confused", "statement": "eth_call answers with bytes exactly if the execution returned those bytes and everything after it went well, and with an error in every other case, never a crash; the gas estimate answers exactly if the execution succeeds; the message succeeds exactly then, with the hex form of the bytes; of the errors of an execution only those of a revert read as a revert, with that revert's data; and reverts with different data that have gas left over are reported differently.", "quantifier": "all outcomes of executions, all revert data and reasons, all amounts of gas left over, all outcomes of what follows the execution", "why_tests_cant": "Four layers translate between bytes, hex, error texts and empty strings; a test checks single outcomes, not that no outcome is taken for another.", "anchors": ["x/evm/keeper/context.go:EVMCallWithTracer", "x/evm/keeper/context.go:EVMCreateWithTracer", "x/evm/keeper/msg_server.go:Call", "x/evm/keeper/query_server.go:Call", "jsonrpc/backend/eth.go:Call", "jsonrpc/backend/gas.go:EstimateGas"]}
{"id": "C148", "title": "Only the oracle is answered, and queries of different kinds do not disturb each other", "statement": "Whatever else the node's router serves and however executions interleave, query_cosmos answers only the three documented oracle queries; executions on one path go exactly as they would without anything that goes on on other paths; and an execution that has the objects of its path for itself gets the answer to its own text on its own state.", "quantifier": "all numbers of concurrent executions, all schedules, all paths, texts and states", "why_tests_cant": "Depends on how executions in one process interleave; no test enumerates schedules.", "anchors": ["x/evm/precompiles/cosmos/contract.go:ExtendedRun", "x/evm/types/query_cosmos.go:DefaultQueryCosmosWhitelist"]}
{"id": "C149", "title": "The two hashes of a transaction lead to each other", "statement": "An Ethereum transaction on the chain has an Ethereum hash and a Cosmos hash. If the cosmos namespace answers a Cosmos hash for an Ethereum hash, asking back gives the Ethereum hash one started with; if it answers an Ethereum hash for a Cosmos hash, that Cosmos transaction is on the chain and carries that Ethereum transaction, and the Ethereum hash leads to a Cosmos transaction that carries it too. A transaction of an indexed block that is included once is found in both directions exactly, and a hash of no transaction is answered with zeros.", "quantifier": "all chains, including blocks whose indexing fails half way and blocks that include a transaction again, and all hashes", "why_tests_cant": "The two collections are written separately, for every block, and are never cleaned up; that they agree is an invariant over all histories.", "anchors": ["indexer/abci.go:ListenFinalizeBlock", "indexer/reader.go:CosmosTxHashByTxHash", "indexer/reader.go:TxHashByCosmosTxHash", "jsonrpc/backend/cosmos.go:CosmosTxHashByTxHash", "jsonrpc/backend/cosmos.go:TxHashByCosmosTxHash", "jsonrpc/namespaces/cosmos/api.go"]}
{"id": "C150", "title": "A command line is executed as it is written", "statement": "The commands create, create2 and call make the chain execute, as the holder of the key, exactly the creation or call their arguments write: the code of the file followed by the constructor argument, the salt, the contract named in either spelling, the input bytes and the value; they do so exactly if every argument can be read and the sender may deploy, and otherwise nothing is executed. The forms the documentation shows are accepted.", "quantifier": "all files, arguments, values, salts, addresses and senders", "why_tests_cant": "The arguments are unbounded texts that are read, written again and read a second time by the chain; a test tries a few.", "anchors": ["x/evm/client/cli/tx.go:CreateCmd", "x/evm/client/cli/tx.go:Create2Cmd", "x/evm/client/cli/tx.go:CallCmd", "x/evm/client/cli/tx.go:prepareContractCreation", "x/evm/client/cli/tx.go:readContractBinFile", "x/evm/keeper/msg_server.go"]}
{"id": "C151", "title": "Interchain accounts do what they are allowed to, and can use the chain", "statement": "A packet for an interchain account is executed only if every message in it is of a type on the host's allow list and signed by that account alone, all of its messages or none; messages that are not on the list cannot be executed by the account; and the default list lets it use what this chain offers (contract calls) and names only messages the chain executes.", "quantifier": "every packet, account, chain state, router and set of grants, and every depth of wrapped messages", "why_tests_cant": "wrapping can be nested to any depth and the handlers are arbitrary; tests try some messages", "anchors": ["app/genesis.go: ConfigureICA", "app/const.go", "app/modules.go: appModules", "app/keepers/keepers.go: icaHostKeeper, authzKeeper"]}
{"id": "C152", "title": "IBC transfers can be rate limited", "statement": "A transfer over IBC that would exceed the limit set for its denom and channel is refused, and the chain's authority can set such limits.", "quantifier": "every history of transactions and interchain account packets, every denom, channel, flow and amount", "why_tests_cant": "that no history leads to a limit quantifies over all histories and signers", "anchors": ["app/keepers/keepers.go: rateLimitKeeper, transferStack", "app/modules.go: appModules", "app/app.go: RegisterServices"]}
{"id": "C153", "title": "The default genesis is consistent", "statement": "Whatever the markets and the denom a chain is initialized with: its oracle pairs are the reserved timestamp pair and the markets, with distinct consecutive ids below the next free id; fees and auction bids are in that denom; no minimum gas price is set, interchain accounts are on with the default list; and nothing else of the modules' defaults changes.", "quantifier": "every market list, denom and default genesis", "why_tests_cant": "ranges over all market lists and denoms", "anchors": ["app/genesis.go: NewDefaultGenesisState, AddMarketData, ConfigureDefaultDenom, ConfigureMinGasPrices, ConfigureICA"]}
{"id": "C154", "title": "A launched chain is what was asked for", "statement": "A chain launched for a denom uses that denom for its fees, and a new chain allows the IBC client types of the default list except the localhost client.", "quantifier": "every denom, market list and default list of clients", "why_tests_cant": "ranges over all denoms and lists", "anchors": ["cmd/minitiad/launch.go: LaunchCommand", "app/genesis.go: ConfigureIBCAllowedClients"]}
{"id": "C155", "title": "The pool summary lists the pool, and a node knows whether it has caught up", "statement": "txpool_inspect answers exactly when txpool_content does, with one line for exactly the transactions of that answer, under the same sender and nonce; from a line the receiver (or that the transaction creates a contract), amount, gas and gas price can be told; and eth_syncing is false exactly for a node that has caught up, and otherwise gives its first and its latest block.", "quantifier": "every pool, queue and transaction, and every state of the node", "why_tests_cant": "ranges over all pools and all numbers and addresses a line can hold", "anchors": ["jsonrpc/backend/txpool.go: TxPoolInspect", "jsonrpc/backend/eth.go: Syncing"]}
{"id": "C156", "title": "JSON-RPC servers run as configured", "statement": "The configuration that the node writes at its initialization is the one it reads back; an environment variable wins over the file; an enabled server answers exactly the methods of the configured namespaces; an option that is not set takes its documented default; a list of namespaces can be written as a list; limits on batches and connections are enforced as set, and an option that cannot be read is reported rather than dropped.", "quantifier": "every configuration, environment, file, set of services and namespace", "why_tests_cant": "ranges over all configurations and texts", "anchors": ["jsonrpc/config/config.go: GetConfig, DefaultConfigTemplate, AddConfigFlags, DefaultAPIs", "jsonrpc/jsonrpc.go: StartJSONRPC", "jsonrpc/backend/backend.go: NewJSONRPCBackend", "x/evm/config/config.go: GetConfig", "cmd/minitiad/config.go: initAppConfig"]}
{"id": "C157", "title": "Pool summary and progress are as Ethereum's", "statement": "The lines of txpool_inspect are in the format of Ethereum's nodes (decimal numbers), and a node that is behind gives the highest block it knows of and what remains to be indexed.", "quantifier": "every transaction and every state of a node that is behind", "why_tests_cant": "the format must hold for every number and address", "anchors": ["jsonrpc/backend/txpool.go: TxPoolInspect", "jsonrpc/backend/eth.go: Syncing"]}
{"id": "C158", "title": "Proposed blocks keep to the limits and every kind of transaction has its share", "statement": "Whatever is in the mempool and however the lanes choose, a block the node proposes is within the chain's limits on bytes and gas; it consists of oracle updates, the auction's bundle, free transactions and the others, in this order, each within a tenth (the last: seven tenths) of the block; none is repeated in another part; what a lane selects within its share is always taken, so no kind of transaction can crowd out another; and each transaction is kept in exactly one lane, the first that matches it; and each kind has room of its own in the mempool (one oracle update, a hundred bids, a hundred free transactions, the rest as configured), refused only when that is used up.", "quantifier": "every mempool, selection, block limit and mempool size", "why_tests_cant": "ranges over all mempools and selection strategies", "anchors": ["app/blocksdk.go: setupBlockSDK"]}
{"id": "C159", "title": "What fits into a block gets into one", "statement": "A transaction that is admitted to the mempool can be in a proposed block, and transactions that wait can use the space nobody else uses, whatever size of the mempool is configured.", "quantifier": "every transaction, block limit, mempool and selection strategy", "why_tests_cant": "that no strategy ever includes a transaction quantifies over all of them", "anchors": ["app/blocksdk.go: setupBlockSDK", "app/ante/ante.go: NewAnteHandler"]}
{"id": "C160", "title": "A node indexes what it finalizes, and serves JSON-RPC, whatever else it runs", "statement": "Every block a node finalizes is in its Ethereum index, and a node configured with a JSON-RPC server starts, independently of whether other optional services of the node are enabled.", "quantifier": "every history of runs of a node, with any configuration and any number of blocks in each", "why_tests_cant": "ranges over all sequences of restarts with changed configurations", "anchors": ["app/indexer.go: setupIndexer", "app/app.go: NewMinitiaApp, EVMIndexer", "jsonrpc/jsonrpc.go: StartJSONRPC", "jsonrpc/namespaces/eth/filters/api.go: NewFilterAPI", "cmd/minitiad/root.go: initRootCmd"]}
{"id": "C161", "title": "A genesis file that validates gives a consistent chain", "statement": "A genesis file of the EVM module that passes the validation gives a chain with valid parameters, in which denoms and contracts, and NFT classes and contracts, correspond one-to-one, and whose factory and wrapper are known; the export of a running chain and the default genesis validate.", "quantifier": "every genesis file, every running chain", "why_tests_cant": "ranges over all genesis files", "anchors": ["x/evm/types/genesis.go: Validate", "x/evm/types/params.go: Validate", "x/evm/keeper/genesis.go: InitGenesis, ExportGenesis"]}
{"id": "C162", "title": "All nodes compute the same state, whatever else they do", "statement": "Two nodes that start from the same state and execute the same blocks have the same accounts, contract storage, code and balances after every block, and the transactions see the same everywhere (logs, transient storage, access lists, refunds), whatever queries, simulations and transaction checks the nodes serve meanwhile, and however often they restart or throw an executed proposal away.", "quantifier": "every chain of blocks with any code in them, every pair of nodes with any life: load, restarts, discarded work", "why_tests_cant": "ranges over all interleavings of block execution with other work of a node, over all programs and all chains", "anchors": ["x/evm/keeper/keeper.go: Keeper.execIndex, NewKeeper", "x/evm/state/statedb.go: NewStateDB, Commit", "x/evm/keeper/context.go: NewStateDB"]}
{"id": "C163", "title": "Storage writes never abort an execution through the refund counter", "statement": "Whatever slots a transaction's contracts write, clear and write again, in whatever nesting of calls that succeed, revert or run out of gas, the gas refund counter covers the refund of every slot that held something before the transaction and is empty now; so taking such a refund back never finds the counter too low, and no transaction is lost to \"Refund counter below zero\".", "quantifier": "every initial storage, every sequence and nesting of storage writes, snapshots and reverts, every way a frame ends", "why_tests_cant": "ranges over all call trees and all slots; the counter lives in the same layered store as the slots and must stay in step with them through every revert", "anchors": ["x/evm/state/statedb.go: AddRefund, SubRefund, GetCommittedState, SetState, Snapshot, RevertToSnapshot"]}
{"id": "C164", "title": "What a contract has written is still there when a contract it called returns", "statement": "While a contract waits for a call to return, what it stored under a key that the called code does not write stays as it was: a lock it took is still taken, and a ledger that debits one account, calls out, and credits another has, at the end of the transaction, made exactly the payment, however the called code used calls that fail.", "quantifier": "every initial store, every nesting of calls, every number of failing calls in the called code, every key the called code does not write", "why_tests_cant": "ranges over all call trees and all numbers of failing inner calls; whether a waiting frame's writes survive depends on how many reverts happened below it, not on any single call", "anchors": ["x/evm/state/statedb.go: Snapshot, RevertToSnapshot, Commit"]}
{"id": "C165", "title": "`init` sets up a node as asked and destroys nothing", "statement": "`minitiad init` writes a genesis with the chain id, denom and first height asked for; an existing genesis is replaced only with --overwrite and only if the command succeeds; keys that exist stay, with the validator's record of what it signed, unless --recover replaces them; and a command that is refused leaves the home directory as it was.", "quantifier": "every home directory, command line, mnemonic, chain id and denom", "why_tests_cant": "ranges over every combination of flags and of files that may already be there; a test that runs init in an empty directory sees none of the effects on an existing validator", "anchors": ["cmd/minitiad/init.go: InitCmd"]}
{"id": "C166", "title": "Every packet that arrives on a transfer channel is answered", "statement": "A packet received on the transfer port is refused with an error and without any effect, or accepted, or, when its memo asks to forward the tokens and they are sent on, answered once the onward transfer is settled. Tokens beyond the rate limit are refused and trigger no contract; forwarded tokens are limited on the way in and on the way out; a packet on the nft-transfer port is always answered at once.", "quantifier": "every packet, memo, chain state, rate limit, route and channel, and every behaviour of the transfer application", "why_tests_cant": "the outcome depends on how five layers compose for every combination of requests in one memo; tests exercise the hooks with a mock application that always answers", "anchors": ["app/keepers/keepers.go: transferStack, nftTransferStack", "app/ibc-hooks/receive.go: onRecvIcs20Packet, onRecvIcs721Packet"]}
{"id": "C167", "title": "Coins sent to a forwarding account are sent on and the block ends", "statement": "Every keeper is handed keepers that it can call. Coins that arrive at a forwarding account in a block are sent on over the account's channel at its end, and whatever arrives, the block ends.", "quantifier": "every chain state, forwarding account, channel and amount; every keeper and middleware built at start", "why_tests_cant": "the failure is at the end of a block in which a certain kind of account was paid, on an open channel; no test in the repository runs that, and no unit test sees which pointer was still nil when a constructor ran", "anchors": ["app/keepers/keepers.go: NewAppKeeper", "app/modules.go: orderEndBlockers", "x/bank/keeper/send.go: SendCoins"]}
{"id": "C168", "title": "A transaction can be followed by its hash", "statement": "From the moment a node has accepted a transaction, asking for its hash finds it: while it waits as pending, and once it is in a block with its block and position; the receipt served for the hash is about that transaction, with the status, gas, contract address and logs of its execution, and is served exactly when the transaction is found in a block.", "quantifier": "every chain of blocks, pool, queue and hash", "why_tests_cant": "quantifies over all chains (a transaction may be included more than once, a block may fail to be indexed) and over every state of the pool; a test sees one transaction in one block", "anchors": ["jsonrpc/backend/tx.go: GetTransactionByHash, GetTransactionReceipt, marshalReceipt", "indexer/abci.go: ListenFinalizeBlock", "indexer/reader.go: TxByHash, TxReceiptByHash"]}
{"id": "C169", "title": "What is answered for a transaction hash is right", "statement": "Asked for a hash, a node answers the last transaction with that hash in the blocks it could index, with its block and position, and null exactly if there is none; the receipt is served in exactly the same cases and gives the hash, block, position, status, gas, cumulative gas, logs and created contract of that execution; its logs carry the transaction's hash, block and position.", "quantifier": "as C168: every chain of blocks, pool, queue and hash", "why_tests_cant": "quantifies over all chains, with transactions included more than once and blocks that fail to be indexed", "anchors": ["jsonrpc/backend/tx.go: GetTransactionByHash, GetTransactionReceipt, marshalReceipt", "indexer/abci.go: ListenFinalizeBlock", "indexer/reader.go: TxByHash, TxReceiptByHash"]}
{"id": "C170", "title": "Only an aborted transaction can keep an acknowledgement from being processed", "statement": "Once the transfer application's own callback has succeeded, a contract callback never turns the acknowledgement or timeout of a packet into an error: the packet is processed, or the relayer's transaction is aborted, out of gas or by a panic of the machine; it is processed for every contract that schedules no Cosmos messages and does not panic the machine, as long as the gas pays for the start of the callback. What the contract did is kept only if its call succeeded.", "quantifier": "every packet, memo, contract, nesting of executions and gas limit", "why_tests_cant": "quantifies over all contracts, gas limits and nested executions", "anchors": ["app/ibc-hooks/ack.go: onAckIcs20Packet, onAckIcs721Packet", "app/ibc-hooks/timeout.go: onTimeoutIcs20Packet, onTimeoutIcs721Packet", "x/evm/keeper/context.go: EVMCallWithTracer, dispatchMessages"]}
{"id": "C171", "title": "Nodes agree on blocks as long as their oracle questions are not shared", "statement": "Two nodes that start from the same state and execute the same blocks have the same state after every block and show the transactions the same, whatever else the nodes do, as long as no query served meanwhile asks the oracle through a path a block uses; and no two executions of a block ever share transient data.", "quantifier": "every chain of blocks with any code in them, every pair of nodes with any life, every schedule of oracle executions", "why_tests_cant": "ranges over all interleavings of block execution with other work of a node, over all programs and all chains", "anchors": ["x/evm/keeper/keeper.go: Keeper.execIndex, NewKeeper", "x/evm/state/statedb.go: NewStateDB, Commit", "x/evm/types/query_cosmos.go: DefaultQueryCosmosWhitelist", "x/evm/keeper/precompiles.go: loadPrecompiles"]}
{"id": "C172", "title": "A delivered packet calls only allowed contracts, all or nothing", "statement": "An incoming packet triggers a contract call only if its memo asks for one, the packet receiver equals the target contract and the contract is allow-listed; the call's sender is the intermediate address derived from the channel and the sender, which no two senders share; tokens are first credited to that address. Delivering the packet ends with the acknowledgement of a success, if the application, the approval and the call all went well, with the acknowledgement of an error, which leaves nothing else behind, or with the relayer's transaction aborted, out of gas or by a panic of the machine.", "quantifier": "every packet, memo, contract, nesting of executions and gas limit", "why_tests_cant": "quantifies over all packets, contracts, gas limits and nested executions", "anchors": ["app/ibc-hooks/receive.go: onRecvIcs20Packet, onRecvIcs721Packet", "app/ibc-hooks/util.go: validateAndParseMemo, DeriveIntermediateSender", "x/evm/keeper/context.go: EVMCallWithTracer"]}

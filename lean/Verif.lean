import Verif.Props.CacheStack
import Verif.Props.World
import Verif.Props.World2
import Verif.Props.Frames
import Verif.Props.Exec
import Verif.Props.PrecompileCtx
import Verif.Props.Fees
import Verif.Props.GasPrice
import Verif.Props.Messages
import Verif.Props.TxUtils
import Verif.Props.SigAnte
import Verif.Props.Denom
import Verif.Props.Tokens
import Verif.Props.Ledger
import Verif.Props.Registry
import Verif.Props.Identity
import Verif.Props.Params
import Verif.Props.Genesis
import Verif.Model.Hooks
import Verif.Spec.Hooks
import Verif.Props.Hooks
import Verif.Props.IbcDenom
import Verif.Model.IndexStore
import Verif.Props.IndexStore
import Verif.Model.Indexer
import Verif.Props.Indexer
import Verif.Model.LockTable
import Verif.Props.LockTable
import Verif.Model.SendQueue
import Verif.Props.SendQueue
import Verif.Model.BlockTag
import Verif.Props.BlockTag
import Verif.Model.LogFilter
import Verif.Props.LogFilter
import Verif.Model.Filters
import Verif.Props.Filters
import Verif.Model.FeeHistory
import Verif.Props.FeeHistory
import Verif.Model.RpcTx
import Verif.Props.RpcTx
import Verif.Model.TxPool
import Verif.Props.TxPool
import Verif.Model.Bank
import Verif.Spec.Bank
import Verif.Props.Bank
import Verif.Props.BankGenesis
import Verif.Model.Wrapper
import Verif.Spec.Wrapper
import Verif.Props.Wrapper
import Verif.Model.Nft
import Verif.Spec.Nft
import Verif.Props.Nft
import Verif.Model.Query
import Verif.Props.Query
import Verif.Spec.Eth
import Verif.Lemmas.Eth
import Verif.Props.Eth
import Verif.Model.Value
import Verif.Spec.Value
import Verif.Props.Value
import Verif.Model.Keys
import Verif.Props.Keys
import Verif.Model.Pipeline
import Verif.Props.Pipeline
import Verif.Model.Create
import Verif.Props.Create
import Verif.Model.WrapMsg
import Verif.Props.WrapMsg
import Verif.Model.SigGas
import Verif.Props.SigGas
import Verif.Model.FeeDenom
import Verif.Props.FeeDenom
import Verif.Model.Memo
import Verif.Spec.Memo
import Verif.Props.Memo
import Verif.Model.Nested
import Verif.Props.Nested
import Verif.Model.Listing
import Verif.Props.Listing
import Verif.Model.ModuleAcct
import Verif.Props.ModuleAcct
import Verif.Model.Export
import Verif.Props.Export
import Verif.Model.Estimate
import Verif.Props.Estimate
import Verif.Model.Halt
import Verif.Props.Halt
import Verif.Model.Cost
import Verif.Props.Cost
import Verif.Model.Answers
import Verif.Props.Answers
import Verif.Model.Paging
import Verif.Spec.Paging
import Verif.Props.Paging
import Verif.Model.TokenMeta
import Verif.Props.TokenMeta
import Verif.Model.Books
import Verif.Spec.Books
import Verif.Props.Books
import Verif.Spec.Safe
import Verif.Props.Safe
import Verif.Model.LogStream
import Verif.Spec.LogStream
import Verif.Props.LogStream
import Verif.Model.Charges
import Verif.Spec.Charges
import Verif.Props.Charges
import Verif.Model.Rollback
import Verif.Props.Rollback
import Verif.Model.ReadText
import Verif.Props.ReadText
import Verif.Props.AccessText
import Verif.Model.Upgrade
import Verif.Props.Upgrade
import Verif.Props.JsonText
import Verif.Props.WrapRead
import Verif.Props.HooksNft
import Verif.Model.Endpoints
import Verif.Props.Endpoints
import Verif.Props.ModuleBank
import Verif.Props.EstimateMsg
import Verif.Props.MemoRead
import Verif.Model.BlockEnv
import Verif.Props.BlockEnv
import Verif.Props.BigText
import Verif.Model.NftHooks
import Verif.Props.NftHooks
import Verif.Model.BankQuery
import Verif.Props.BankQuery
import Verif.Model.RevertText
import Verif.Spec.RevertText
import Verif.Props.RevertText
import Verif.Model.Oracle
import Verif.Props.Oracle
import Verif.Model.FeeToken
import Verif.Props.FeeToken
import Verif.Model.Translate
import Verif.Props.Translate
import Verif.Model.Cli
import Verif.Props.Cli
import Verif.Model.Routes
import Verif.Props.Routes
import Verif.Model.NodeConfig
import Verif.Props.NodeConfig
import Verif.Model.Lanes
import Verif.Props.Lanes
import Verif.Model.Startup
import Verif.Props.Startup
import Verif.Model.Nodes
import Verif.Props.Nodes
import Verif.Model.NodesOracle
import Verif.Props.NodesOracle
import Verif.Model.Refunds
import Verif.Props.Refunds
import Verif.Model.Callbacks
import Verif.Props.Callbacks
import Verif.Spec.CacheMarks
import Verif.Props.CacheMarks
import Verif.Spec.PrecompileMarks
import Verif.Props.PrecompileMarks
import Verif.Props.IndexExact
import Verif.Props.RegistryLate
import Verif.Spec.FrameMarks
import Verif.Props.FrameMarks
import Verif.Props.BurnExact
import Verif.Props.ParamsExact
import Verif.Props.IdentityExact
import Verif.Props.DenomExact
import Verif.Props.LogGaps
import Verif.Props.TxPoolExact
import Verif.Props.FiltersExact
import Verif.Props.HaltExact
import Verif.Props.FeeHistoryExact
import Verif.Props.TokenMetaExact
import Verif.Props.MemoExact
import Verif.Props.ValueExact
import Verif.Props.ReadTextExact
import Verif.Props.SigAnteExact
import Verif.Props.ExecExact
import Verif.Props.SendQueueExact
import Verif.Props.QueryExact
import Verif.Props.BankExact
import Verif.Props.HooksExact
import Verif.Props.ViewExact
import Verif.Props.NodeExact
import Verif.Props.WrapperExact
import Verif.Props.InitCmd
import Verif.Props.CreateExact
import Verif.Props.ParamsExact
import Verif.Props.Stack
import Verif.Props.Wiring
import Verif.Props.RefusalExact
import Verif.Props.Follow
import Verif.Props.AnteSigs
import Verif.Model.HookGas
import Verif.Props.HookGas
import Verif.Model.WrapSend
import Verif.Props.WrapSend

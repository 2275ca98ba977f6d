import Verif.Contract.PropsSig
import Verif.VM.PropsVar
import Verif.VM.PropsCode
import Verif.VM.PropsGas
import Verif.VM.PropsSend
import Verif.VM.PropsArith
import Verif.VM.PropsConst
import Verif.VM.PropsSafe
import Verif.VM.PropsStorage
import Verif.VM.PropsProxy
import Verif.Contract.PropsSwap
import Verif.Codec.PropsFixed
import Verif.Codec.PropsVdf
import Verif.Codec.PropsHash
import Verif.Codec.PropsPlot
import Verif.Chain.Props
import Verif.Chain.PropsBands
import Verif.DB.PropsCrash
import Verif.DB.PropsIter
import Verif.DB.PropsDataBase
import Verif.DB.PropsKeys
import Verif.DB.PropsTyped
import Verif.DB.PropsMulti
import Verif.DB.PropsBytes
import Verif.Ledger.PropsTx
import Verif.Ledger.PropsChain
import Verif.Ledger.PropsRerun
import Verif.Ledger.PropsAssemble
import Verif.Node.PropsPool
import Verif.Node.PropsHistory
import Verif.Node.PropsTimeLord
import Verif.Contract.PropsOffer
import Verif.Contract.PropsPlots
import Verif.Contract.PropsTokens
import Verif.Contract.PropsHorse
import Verif.Wallet.PropsFund
import Verif.Wallet.PropsPending
import Verif.Wallet.PropsSign
import Verif.Wallet.PropsText
import Verif.Wallet.PropsApi
import Verif.Node.PropsChain
import Verif.Node.Examples
import Verif.Hash.PropsSha
import Verif.Hash.PropsCuda
import Verif.Hash.PropsSha256
import Verif.Hash.PropsArm
import Verif.Pos.PropsTables
import Verif.Pos.PropsProof
import Verif.Pos.PropsMemHash
import Verif.Time.PropsChallenge
import Verif.Time.PropsPoints
import Verif.Time.PropsSlots
import Verif.Time.PropsBlockProof
import Verif.Compile.PropsProgram
import Verif.Compile.PropsSyntax
import Verif.Router.PropsGossip
import Verif.Router.PropsSync
import Verif.Catchup.Props
import Verif.Farm.PropsProver
import Verif.Farm.PropsHarvest
import Verif.Farm.PropsDeliver
import Verif.Farm.PropsQueue
import Verif.Farm.PropsPartial
import Verif.Rules.PropsDepends
import Verif.Rules.PropsVoting
import Verif.Rules.PropsProofs
import Verif.Blocks.Props
import Verif.Index.PropsLiquid
import Verif.Index.PropsFarmers
import Verif.Index.PropsOffers
import Verif.Contract.PropsStd
import Verif.Contract.PropsPoker
import Verif.Contract.PropsTurn
import Verif.Contract.PropsSeats
import Verif.Control.Props
import Verif.DB.PropsBlock
import Verif.Sig.PropsCache
import Verif.Pos.PropsRemote
import Verif.Gpu.PropsQueue
import Verif.Wallet.PropsRefresh
import Verif.Router.PropsIdentity
import Verif.Router.PropsConnections
import Verif.Wallet.PropsBalance
import Verif.Farm.PropsPlots
import Verif.Farm.PropsPool
import Verif.Rules.PropsProofQueue
import Verif.Wallet.PropsAccounts
import Verif.Contract.PropsSwapQuery
import Verif.Rules.PropsPastState
import Verif.Wallet.PropsAutoLock
import Verif.Codec.PropsBlockHash
import Verif.Farm.PropsSigned
import Verif.Rules.PropsBalances
import Verif.Contract.PropsShown
import Verif.Contract.PropsSwapShown
import Verif.Wallet.PropsTokens
import Verif.Router.PropsRequests
import Verif.Node.PropsContractCache
import Verif.Node.PropsQueue
import Verif.Codec.PropsTimeHash
import Verif.Index.PropsDeploys
import Verif.Index.PropsTxLog
import Verif.Wallet.PropsExchange
import Verif.Wallet.PropsOffers
import Verif.Wallet.PropsFind

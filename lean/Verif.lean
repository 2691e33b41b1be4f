import Verif.Model.Base
import Verif.Model.Hash
import Verif.Model.SparseFeatures
import Verif.Model.Weights
import Verif.Model.Explore
import Verif.Model.Loss
import Verif.Model.Coin
import Verif.Model.Reductions
import Verif.Model.Factory
import Verif.Model.InverseHash
import Verif.Props.Hash
import Verif.Props.Weights
import Verif.Props.Visit
import Verif.Props.Interactions
import Verif.Model.Field
import Verif.Props.SparseFeatures
import Verif.Props.Explore
import Verif.Props.ExplorePolicies
import Verif.Spec
import Verif.Props.Stack
import Verif.Props.SquareCb
import Verif.Props.Types
import Verif.Lemmas.Cb
import Verif.Props.CbAdf
import Verif.Props.CbAdf2
import Verif.Props.Wrap
import Verif.Props.Debug
import Verif.SpecCoin
import Verif.Model.F32
import Verif.Lemmas.Coin
import Verif.Lemmas.F32
import Verif.Lemmas.CoinStack
import Verif.Props.Coin
import Verif.Props.Coin2
import Verif.Props.Loss
import Verif.Props.Elementwise
import Verif.Model.Pipeline
import Verif.Lemmas.Pipeline
import Verif.Lemmas.Pipeline2
import Verif.Lemmas.Pipeline3
import Verif.Lemmas.Pipeline4
import Verif.Lemmas.Pipeline5
import Verif.Lemmas.Pipeline6
import Verif.Props.Pipeline
import Verif.Model.Train
import Verif.Model.Names
import Verif.Props.Train
import Verif.Props.Names
import Verif.Model.Json
import Verif.Model.Serde
import Verif.SpecTypes
import Verif.SpecSerde
import Verif.Lemmas.SerdeW
import Verif.Lemmas.Serde
import Verif.Lemmas.SerdeSim
import Verif.Lemmas.SerdeDoc
import Verif.Props.Serde
import Verif.Model.Text
import Verif.Model.VwText
import Verif.SpecText
import Verif.Lemmas.Text
import Verif.Lemmas.VwText
import Verif.Props.Read
import Verif.Props.Vw
import Verif.Model.JsonParser
import Verif.SpecJson
import Verif.Lemmas.JsonParser
import Verif.Props.JsonParser
import Verif.Lemmas.Recycle
import Verif.Props.Recycle
import Verif.Model.Config
import Verif.SpecConfig
import Verif.SpecConfigNew
import Verif.Lemmas.Config
import Verif.Props.Config
import Verif.Props.ConfigNew
import Verif.SpecTrain
import Verif.Model.PoolTrain
import Verif.Lemmas.Parsed
import Verif.Lemmas.Loose
import Verif.Lemmas.PoolTrain
import Verif.Props.EndToEnd
import Verif.Model.Command
import Verif.SpecCommand
import Verif.Lemmas.Command
import Verif.Lemmas.Command2
import Verif.Lemmas.Command3
import Verif.Props.Command
import Verif.Model.VwNames
import Verif.SpecNames
import Verif.Lemmas.VwNames
import Verif.Props.VwNames
import Verif.Model.Python
import Verif.SpecPython
import Verif.Lemmas.Python
import Verif.Props.Python
import Verif.SpecPlay
import Verif.Lemmas.Play
import Verif.Lemmas.Table
import Verif.Props.Play
import Verif.SpecSafe
import Verif.Lemmas.Safe
import Verif.Props.Safe
import Verif.SpecTrainOut
import Verif.Lemmas.ParsedFit
import Verif.Lemmas.TrainOut
import Verif.Props.ParsedFit
import Verif.Props.TrainSafe
import Verif.Model.Schema
import Verif.SpecSchema
import Verif.Lemmas.Schema
import Verif.Props.Schema
import Verif.Lemmas.Units
import Verif.Props.Units
import Verif.Props.ZeroFeatures
import Verif.Lemmas.AddZero
import Verif.Props.ZeroF32
import Verif.Props.ZeroInteractions
import Verif.Props.Expanded
import Verif.Lemmas.Order
import Verif.Props.Order
import Verif.SpecChoice
import Verif.SpecSettings
import Verif.Props.Settings
import Verif.Props.ElementwiseTable
import Verif.Props.ElementwiseStacks
import Verif.SpecPyConfig
import Verif.Props.PyConfig
import Verif.Model.Shift
import Verif.Props.NumBits
import Verif.Props.Choice
import Verif.Lemmas.Renaming
import Verif.Lemmas.Bits
import Verif.Props.Renaming
import Verif.SpecLogged
import Verif.Props.OffPolicy
import Verif.SpecFormats
import Verif.Lemmas.Formats
import Verif.Props.Formats
import Verif.Props.Declines
import Verif.Props.Regret
import Verif.Model.Round
import Verif.Lemmas.Round
import Verif.Props.Rounded
import Verif.Props.RoundedMetrics
import Verif.Props.RoundedPredict
import Verif.Props.Ieee
import Verif.Props.Nan
import Verif.Lemmas.CoinWealth
import Verif.Props.NanVisits
import Verif.Props.MetricsF32
import Verif.Props.GreedyF32
import Verif.Lemmas.ExploreVal
import Verif.Props.ExploreF32
import Verif.Model.Crash
import Verif.SpecCrash
import Verif.Lemmas.Crash
import Verif.Lemmas.CrashState
import Verif.Lemmas.CrashFeatures
import Verif.Lemmas.CrashBandit
import Verif.Lemmas.CrashIps
import Verif.Props.Crash
import Verif.Model.Sensitivity
import Verif.Props.Sensitivity
import Verif.Props.InverseHash
import Verif.Props.Listing
import Verif.Lemmas.Lambert
import Verif.Props.Flow
import Verif.Lemmas.Betting
import Verif.Lemmas.BetInv
import Verif.SpecOnline
import Verif.Lemmas.Online
import Verif.Props.Online
import Verif.SpecReference
import Verif.Lemmas.Reference
import Verif.Props.Reference
import Verif.Lemmas.Profile
import Verif.Lemmas.Profile2
import Verif.Props.Profile
import Verif.SpecRelabel
import Verif.Lemmas.Lift
import Verif.Lemmas.Relabel
import Verif.Lemmas.Reorder
import Verif.Props.Lift
import Verif.Props.ProfilePython
import Verif.Props.Restore
import Verif.Props.RestoreAll
import Verif.Model.PythonCrash
import Verif.SpecPythonCrash
import Verif.Lemmas.CrashInv
import Verif.Lemmas.CrashKeeps
import Verif.Lemmas.PythonCrash
import Verif.Props.PythonCrash
import Verif.SpecEdit
import Verif.Lemmas.Edit
import Verif.Props.Edit
import Verif.SpecExplore32
import Verif.Lemmas.Explore32
import Verif.Props.Explore32
import Verif.Model.Progress
import Verif.Props.LongTrain
import Verif.Props.Progress
import Verif.Props.Growth
import Verif.Props.EditSettings

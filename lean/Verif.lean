import Verif.Props.Ecc
import Verif.Props.Encoding
import Verif.Props.Rand
import Verif.Props.Field
import Verif.Props.Fss
import Verif.Props.Query
import Verif.Props.Predicate
import Verif.Props.PredicateAvg
import Verif.Props.PredicateMac
import Verif.Props.PredicateRobust
import Verif.Props.Point
import Verif.Props.PointPrivacy
import Verif.Props.Merkle
import Verif.Props.MerklePir
import Verif.Props.Matrix
import Verif.Props.Lwe
import Verif.Props.Amplify
import Verif.Props.Layout
import Verif.Props.Pgp
import Verif.Props.Parallel
import Verif.Props.Dh
import Verif.Props.Rpc
import Verif.Props.Cmd
import Verif.Spec.Privacy
import Verif.Lemmas.Privacy
import Verif.Props.Privacy
import Verif.Props.FssPrivacy
import Verif.Spec.FssPrivacy
import Verif.Lemmas.FssHybrid
import Verif.Lemmas.FssFinal
import Verif.Lemmas.FssStat
import Verif.Lemmas.FssView
import Verif.Props.FssHiding
import Verif.Model.Client
import Verif.Spec.Client
import Verif.Lemmas.Client
import Verif.Props.Client
import Verif.Props.ClientPrivacy
import Verif.Props.ClientPrivacyTwo
import Verif.Props.MerkleBlind
import Verif.Props.ClientAuth
import Verif.Props.PredicateText
import Verif.Props.ClientStats
import Verif.Props.Deploy
import Verif.Props.DeployStats
import Verif.Props.Simul
import Verif.Props.SimulStats
import Verif.Props.Local
import Verif.Props.LocalDh
import Verif.Props.LocalMerkle
import Verif.Props.Data
import Verif.Props.DataShown
import Verif.Props.DataHistory
import Verif.Props.PgpAddress
import Verif.Props.Shared
import Verif.Props.Uptime
import Verif.Props.Life
import Verif.Props.DataErrors
import Verif.Props.DumpLookup
import Verif.Props.AmplifyBound
import Verif.Props.RandShared
import Verif.Props.Tls
import Verif.Props.Web
import Verif.Props.Monitor
import Verif.Props.Interactive
import Verif.Props.Forgery
import Verif.Props.ReactionDh
import Verif.Props.ReactionLwe
import Verif.Props.ReactionMerkle
import Verif.Props.WrapAround
import Verif.Props.ReactionPredicate
import Verif.Props.Wire
import Verif.Props.History
import Verif.Props.Object
import Verif.Props.Stop
import Verif.Props.Float
import Verif.Props.Zone
import Verif.Props.Chance
import Verif.Props.Uniform
import Verif.Props.Gauss
import Verif.Props.Coins
import Verif.Props.Composed
import Verif.Props.LweChance
import Verif.Props.AmplifyChance
import Verif.Props.ReactionAmplify
import Verif.Props.Schedule
import Verif.Props.Product
import Verif.Props.Arrival
import Verif.Props.Agreement
import Verif.Props.Parts
import Verif.Props.FssPlain
import Verif.Props.ElementDb
import Verif.Props.FssSession
import Verif.Props.MerkleAny
import Verif.Props.PartsTwo
import Verif.Props.ReactionAverage
import Verif.Props.Panic
import Verif.Props.LweReal
import Verif.Props.PointStream
import Verif.Props.LweDraws
import Verif.Props.LweStream
import Verif.Props.CountStream
import Verif.Props.Presence
import Verif.Props.Survive
import Verif.Props.PointAnswer
import Verif.Props.SingleAnswer
import Verif.Props.SingleClient
import Verif.Props.AmplifiedAnswer
import Verif.Props.AmplifyStream
import Verif.Props.DhStream
import Verif.Props.LweHonest
import Verif.Props.AmplifyHonest
import Verif.Props.CountHonest
import Verif.Props.ReactionLength
import Verif.Props.AverageLength
import Verif.Props.ReactionAverageLength
import Verif.Props.CountStreamLength
import Verif.Props.AnswerOrder
import Verif.Props.StatsPresence
import Verif.Props.SessionOrder
import Verif.Props.WebStatsPresence
import Verif.Props.CommandForgery
import Verif.Props.MerkleExact
import Verif.Props.MerklePirExact
import Verif.Props.ChunkOrder
import Verif.Props.MatricesExact
import Verif.Props.ConfigExact
import Verif.Props.DhExact
import Verif.Props.LweQueryExact
import Verif.Props.ElementsExact
import Verif.Props.FssLengthExact

import Verif.Gencoder.Props
import Verif.Store.Conc
import Verif.Vector.Props
import Verif.Vector.SoftFloat
import Verif.Data.Props
import Verif.Search.Props
import Verif.Store.During
import Verif.Search.During
import Verif.Store.Linear
import Verif.Search.AggProps
import Verif.Search.AggExact
import Verif.Search.Stream
import Verif.Search.Cache
import Verif.Process.Stats
import Verif.Process.Props
import Verif.Process.Limits
import Verif.Process.Transfer
import Verif.Index.Props
import Verif.Index.Bounds
import Verif.Dataset.Run
import Verif.Dataset.Load
import Verif.Node.Drain
import Verif.Node.Ready
import Verif.Pool.Claims
import Verif.Node.Conc
import Verif.Node.DataStream
import Verif.Cluster.Insert
import Verif.Files.Props
import Verif.Node.Sync
import Verif.Cluster.Search
import Verif.Cluster.Safe
import Verif.Cluster.Replicas
import Verif.Vector.Rounding
import Verif.Vector.RoundErr
import Verif.Vector.Value
import Verif.Vector.NumErr
import Verif.Vector.Accurate
import Verif.Vector.Accuracy
import Verif.Vector.Products
import Verif.Vector.CosErr
import Verif.Vector.AngErr
import Verif.Vector.CosFine
import Verif.Process.StatsFloat
import Verif.Process.IndexCover
import Verif.Search.Limits
import Verif.Process.Exchange
import Verif.Process.Close
import Verif.Dataset.Info
import Verif.Dataset.Create
import Verif.Cluster.Versions
import Verif.Cluster.Life
import Verif.Cluster.Rebalance
import Verif.Annoy.Use
import Verif.Race.Info
import Verif.Race.Known
import Verif.Process.Range
import Verif.Node.TimerProps
import Verif.Search.CacheHits
import Verif.Server.Props
import Verif.Unsafe.Props
import Verif.Search.Nearest
import Verif.Search.Similar
import Verif.Search.Ranking
import Verif.Search.More
import Verif.Search.Self
import Verif.Annoy.Ends
import Verif.Annoy.Buffer
import Verif.Search.Calls
import Verif.Search.Stable
import Verif.Server.Startup
import Verif.Annoy.Self
import Verif.Annoy.Kiss
import Verif.Node.Services
import Verif.Dataset.Retention
import Verif.Node.Prolong
import Verif.Annoy.More
import Verif.Cluster.Unary
import Verif.Cluster.EndToEnd
import Verif.Cluster.Ranking
import Verif.Cluster.Complete
import Verif.Node.Isolation
import Verif.Gossip.Props
import Verif.Gossip.Spread
import Verif.Gossip.Last
import Verif.Gossip.Sources
import Verif.Cluster.Placement
import Verif.Node.Contents
import Verif.Node.Remembered
import Verif.Wire.Props
import Verif.Wire.Descriptor
import Verif.Wire.Size
import Verif.Pool.Kept
import Verif.Cluster.Survives
import Verif.Cluster.Answered
import Verif.Data.Commute
import Verif.Cluster.Anywhere
import Verif.Search.Left
import Verif.Cluster.Flood
import Verif.Cluster.Whole
import Verif.Cluster.Cut
import Verif.Cluster.Joined
import Verif.Cluster.Found
import Verif.Cluster.Many
import Verif.Data.Enough
import Verif.Annoy.Loaded
import Verif.Server.Config
import Verif.Annoy.SelfUse
import Verif.Annoy.Later
import Verif.Cluster.ManyCut
import Verif.Gencoder.Canon
import Verif.Cluster.Moving
import Verif.Cluster.Cached
import Verif.Cluster.Several
import Verif.Cluster.Each
import Verif.Store.Ttl
import Verif.Data.Failed
import Verif.Search.Represent
import Verif.Search.Twice
import Verif.Dataset.Winner
import Verif.Dataset.Loops
import Verif.Pool.Crowd
import Verif.Node.Used
import Verif.Search.Duration
import Verif.Process.Accepted
import Verif.Gencoder.Padded

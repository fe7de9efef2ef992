import Verif.Props.Num
import Verif.Props.Resp
import Verif.Props.Util
import Verif.Props.Str
import Verif.Props.Request
import Verif.Props.Strings
import Verif.Props.Lists
import Verif.Props.Hashes
import Verif.Props.Sets
import Verif.Props.Choice
import Verif.Props.Host
import Verif.Props.Log
import Verif.Props.PFile
import Verif.Props.Replay
import Verif.Props.LogOrder
import Verif.Props.Future
import Verif.Props.DataChannel
import Verif.Props.Broadcast
import Verif.Props.DataMap
import Verif.Props.EventBus
import Verif.Props.Topic
import Verif.Props.Wired
import Verif.Props.Calls
import Verif.Props.Conn
import Verif.Props.Stop
import Verif.Props.Pipe
import Verif.Props.Hub
import Verif.Props.Client
import Verif.Props.Reply
import Verif.Props.SortedSet
import Verif.Props.Cells
import Verif.Props.Isolation
import Verif.Props.Crash
import Verif.Props.Restart
import Verif.Props.Durable
import Verif.Props.Lives
import Verif.Props.Retry
import Verif.Props.Session
import Verif.Props.Wire
import Verif.Props.Mirror
import Verif.Props.Handover
import Verif.Props.Start
import Verif.Props.Proto
import Verif.Props.Fate
import Verif.Props.Feed
import Verif.Props.Expiry
import Verif.Props.Net
import Verif.Props.Whole
import Verif.Props.Full
import Verif.Props.Desk
import Verif.Props.Site
import Verif.Props.Fleet
import Verif.Props.Proc
import Verif.Props.Isolated
import Verif.Props.Logging
import Verif.Props.Access
import Verif.Props.Quote
import Verif.Props.Cost
import Verif.Props.Fair
import Verif.Props.Heard
import Verif.Props.Logged
import Verif.Props.Gone
import Verif.Props.Leave
import Verif.Props.Served
import Verif.Props.Cluster
import Verif.Props.Chain
import Verif.Props.Registry
import Verif.Props.Recipe
import Verif.Props.RecipeLives
import Verif.Props.Register
import Verif.Props.RegisterLives
import Verif.Props.Journal
import Verif.Props.Group
import Verif.Props.GroupLives
import Verif.Props.Understood
import Verif.Props.JournalLives
import Verif.Props.Counter
import Verif.Props.Roll
import Verif.Props.RollLives
import Verif.Props.Row
import Verif.Props.RowLives
import Verif.Props.Sheet
import Verif.Props.SheetLives
import Verif.Props.Shelf
import Verif.Props.ShelfLives
import Verif.Props.Kept
import Verif.Props.Survives
import Verif.Props.AnyLog
import Verif.Props.Refused
import Verif.Props.RefusedFeed
import Verif.Props.Lasting
import Verif.Props.KeptLives
import Verif.Props.CounterLives
import Verif.Props.Halted
import Verif.Checks.GoTests

import Verif.Props.Elements
import Verif.Props.Segments
import Verif.Props.Lists
import Verif.Props.ClientPages
import Verif.Props.Issue
import Verif.Props.ClientJobs
import Verif.Props.Hosts
import Verif.Props.ClientMany
import Verif.Props.ClientArgs
import Verif.Props.Routes
import Verif.Props.Power
import Verif.Props.Onward
import Verif.Props.Repeat
import Verif.Props.Cost
import Verif.Props.ReadFaults
import Verif.Props.Untrusted
import Verif.Props.Tidy
import Verif.Props.Races
import Verif.Props.FromScore
import Verif.Props.Percent
import Verif.Props.SortPar
import Verif.Props.Heap
import Verif.Props.Behind
import Verif.Props.SaveDuring
import Verif.Props.Recover
import Verif.Props.MaxSteps
import Verif.Props.Loader
import Verif.Props.LazyBuf
import Verif.Props.Near
import Verif.Props.LazyLife
import Verif.Props.Crowd
import Verif.Props.ValidateMany
import Verif.Props.ServerRestore
import Verif.Props.Serial
import Verif.Props.Paging
import Verif.Props.Balance
import Verif.Props.Faults
import Verif.Props.Memory
import Verif.Props.Release
import Verif.Props.Payload
import Verif.Props.Validate
import Verif.Props.LockReaders
import Verif.Props.BackupJob
import Verif.Props.LockErrors
import Verif.Props.Layers
import Verif.Props.Shutdown
import Verif.Props.Startup
import Verif.Props.Bytes
import Verif.Props.Verify
import Verif.Props.Pool
import Verif.Props.Scan
import Verif.Props.Answers
import Verif.Props.Tokens
import Verif.Props.CreateRace
import Verif.Props.Restart
import Verif.Props.Server
import Verif.Props.Concurrent
import Verif.Props.Locks
import Verif.Props.Cache
import Verif.Props.SplitCrash
import Verif.Props.Rebuild
import Verif.Props.Crash
import Verif.Props.Chunks
import Verif.Props.Saver
import Verif.Props.EveryList
import Verif.Props.ApiUpdates
import Verif.Props.Api
import Verif.Props.BackupSet
import Verif.Props.Backup
import Verif.Props.Badger
import Verif.Props.LazySaver
import Verif.Props.Retry
import Verif.Props.MaxSize
import Verif.Props.Keys
import Verif.Props.Stored
import Verif.Props.FanOut
import Verif.Props.Bucket
import Verif.Props.Access
import Verif.Props.Catalogue
import Verif.Props.SortFloat
import Verif.Props.Results
import Verif.Props.Queries
import Verif.Props.Maintenance
import Verif.Axioms

import Verif.Base
import Verif.Str.Props
import Verif.Evidence.Props
import Verif.Headers.Props
import Verif.Pseudo.Props
import Verif.Data.Props
import Verif.Overrides.Props
import Verif.Lst.Props
import Verif.Search.Props
import Verif.Memory.Props
import Verif.Properties.Props
import Verif.Ip.Props
import Verif.Profile.Props
import Verif.Component.Props
import Verif.Tree.Props
import Verif.Cache.Props
import Verif.Pool.Props
import Verif.Resource.Props
import Verif.DataSet.Props
import Verif.Status.Props
import Verif.Flt.Props
import Verif.Text.Props
import Verif.Signal.Props
import Verif.Config.Props
import Verif.Value.Props
import Verif.File.Names
import Verif.File.Copy
import Verif.File.Temp
import Verif.File.Existing
import Verif.File.Path
import Verif.Collection.Props
import Verif.Lookup.Props
import Verif.Yaml.Props
import Verif.Engine.Props
import Verif.Life.Props
import Verif.Life.Only
import Verif.Work.Props
import Verif.Record.Props
import Verif.Collection.Hold
import Verif.Record.List
import Verif.Record.Iterate
import Verif.Avail.Props
import Verif.HeadersMem.Props
import Verif.OverridesMem.Props
import Verif.Record.Names
import Verif.Record.Values
import Verif.Record.Texts
import Verif.Record.Whole
import Verif.Record.Each
import Verif.Ip.Any
import Verif.File.InUse
import Verif.Memory.Threads
import Verif.Cache.Threads
import Verif.Collection.Reading
import Verif.Collection.Threads
import Verif.DataSet.Owner
import Verif.DataSet.Requests
import Verif.Single.Resource
import Verif.Single.Pool
import Verif.Quiet.Props
import Verif.Quiet.Iterate
import Verif.Quiet.Failing
import Verif.Collection.Only
import Verif.Evidence.Object
import Verif.Cache.Debug
import Verif.Engine.Update
import Verif.Engine.Owners
import Verif.Resource.Debug
import Verif.Memory.Trees
import Verif.Record.Debug
import Verif.File.Race
import Verif.File.Debug
import Verif.Pool.Progress
import Verif.Resource.Progress
import Verif.Search.Steps
import Verif.Record.Steps
import Verif.Collection.Nodes
import Verif.Properties.Reload
import Verif.File.Umask
import Verif.Config.Threads
import Verif.Config.Owner
import Verif.File.Buffer
import Verif.Cache.Room
import Verif.Audit

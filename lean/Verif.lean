import Verif.Props.Ring
import Verif.Props.Render
import Verif.Props.Sink
import Verif.Props.SinkTree
import Verif.Props.SinkConc
import Verif.Props.SyslogConc
import Verif.Props.SinkConcMore
import Verif.Props.SinkFull
import Verif.Props.SinkFullLive
import Verif.Props.System
import Verif.Props.SystemTree
import Verif.Props.SystemCalls
import Verif.Props.SystemMore
import Verif.Props.SystemResults
import Verif.Props.Yaml
import Verif.Props.YamlMore
import Verif.Props.YamlThrow
import Verif.Props.SystemDocs
import Verif.Props.Syslog
import Verif.Props.Process
import Verif.Props.Whole
import Verif.Props.SyslogProgram
import Verif.Props.LayoutDoc
import Verif.Props.Timed
import Verif.Props.SystemConc
import Verif.Props.Race
import Verif.Props.RaceSystem
import Verif.Props.Stuck
import Verif.Props.Order
import Verif.Props.Lifetime
import Verif.Props.SystemHalts
import Verif.Props.SystemDirect
import Verif.Props.SystemExact
import Verif.Props.Many
import Verif.Props.RingThrow
import Verif.Props.Overload
import Verif.Props.Fair
import Verif.Props.InUse
import Verif.Props.Construct
import Verif.Props.Deliver
import Verif.Props.Exact
import Verif.Props.SinkFullSkips
import Verif.Props.Wake
import Verif.Props.TimedEnd
import Verif.Props.ManyLock
import Verif.Props.ManyUb
import Verif.Props.Terminal
import Verif.Props.ReadBack
import Verif.Props.ManyFair
import Verif.Props.ManyOrder
import Verif.Props.FlushRequest
import Verif.Props.LoneCall
import Verif.Props.FailingStream
import Verif.Props.Unopened
import Verif.Props.ManyDoc
import Verif.Props.RingInit
import Verif.Props.Rotate
import Verif.Props.OneThread
import Verif.Props.OneProgram
import Verif.Props.ManyBusy
import Verif.Props.ManyEnd
import Verif.Props.ManyColor
import Verif.Props.ManyDocUb

import Verif.Util.Dict
import Verif.Reserve.Props
import Verif.Reserve.Monitor
import Verif.Store.Props
import Verif.Cont.Props
import Verif.Cont.Runtime
import Verif.Tank.Props
import Verif.Active.Plain
import Verif.Rec.Props
import Verif.KeyVal.Props
import Verif.KeyVal.Reads
import Verif.Mimic.Props
import Verif.Know.Props
import Verif.Event.Model
import Verif.Event.Inv
import Verif.Event.Props
import Verif.Event.Life
import Verif.Network.Model
import Verif.Network.Props
import Verif.TaskRun.Model
import Verif.TaskRun.Spec
import Verif.TaskRun.Props
import Verif.TaskRun.Special
import Verif.Units.Model
import Verif.Units.Props
import Verif.WaitEv.Model
import Verif.WaitEv.Props
import Verif.Clone.Model
import Verif.Clone.Spec
import Verif.Clone.Lemmas
import Verif.Clone.Props
import Verif.Clone.Equal
import Verif.Rehearse.Model
import Verif.Rehearse.Spec
import Verif.Rehearse.Lemmas
import Verif.Rehearse.Props
import Verif.Rehearse.NetProps
import Verif.Rehearse.Work
import Verif.Nucleus.Model
import Verif.Nucleus.Props
import Verif.Comms.Props
import Verif.Comms.Settings
import Verif.Routing.Props
import Verif.Ctx.Props
import Verif.Table.Props
import Verif.Hold.Fifo
import Verif.Windowed.Live
import Verif.Crossing.Legs
import Verif.Stepped.Run
import Verif.Path.Props
import Verif.Sphere.Props
import Verif.Queued.Cartesian
import Verif.Store.Wake
import Verif.Tank.Wake
import Verif.Globe.Motion
import Verif.Globe.Sample
import Verif.Analytic.Props
import Verif.Locs.Props
import Verif.Locs.Wgs84
import Verif.Multi.Props
import Verif.Multi.Told
import Verif.Build.Props
import Verif.Running.Props
import Verif.Logs.Model
import Verif.Logs.Spec
import Verif.Logs.Props
import Verif.Listen.Props
import Verif.Wgs.Conv
import Verif.Geod.Lines
import Verif.Geod.Contract
import Verif.Geod.Motion
import Verif.Crossing.Two
import Verif.Subdiv.Missed
import Verif.Crossing.Sim
import Verif.Subdiv.Answers
import Verif.Letters.Envelope
import Verif.Letters.Turn
import Verif.Drive.Examples
import Verif.Queued.Geodetic
import Verif.Queued.Source
import Verif.Queued.Sampled
import Verif.Queued.Stay
import Verif.Queued.Starts
import Verif.Subdiv.OneStay
import Verif.Queued.Pass
import Verif.Queued.Restart
import Verif.Queued.Unseen
import Verif.Queued.Accepts
import Verif.Queued.Paired
import Verif.Queued.PairedGeo
import Verif.Queued.Refused
import Verif.Patrol.Given
import Verif.Patrol.Watched
import Verif.Patrol.Shown
import Verif.Drive.SeenGeo
import Verif.Stepped.Delay
import Verif.Stepped.Unseen
import Verif.Patrol.Examples
import Verif.Patrol.Spherical
import Verif.Patrol.Wgs84
import Verif.Predict.Examples
import Verif.Plan.Examples
import Verif.Predict.Flight
import Verif.Proxy.Limits
import Verif.Orders.Active
import Verif.Orders.Nucleus
import Verif.Orders.Routing
import Verif.Orders.Build
import Verif.Orders.Ctx
import Verif.Orders.Stepped
import Verif.Orders.Queued
import Verif.Network.Feasible
import Verif.Snap.Model
import Verif.Snap.Props
import Verif.Sphere.Ellipsoid
import Verif.Geod.Bend
import Verif.Geod.Short
import Verif.Subdiv.WgsModel
import Verif.Subdiv.WgsLines
import Verif.Subdiv.Wgs
import Verif.Subdiv.WgsProps
import Verif.Crossing.Goes
import Verif.Geod.West
import Verif.Subdiv.WgsEquator
import Verif.Geod.Reach
import Verif.Subdiv.WgsTimes

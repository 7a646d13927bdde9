import Verif.Model.System
import Verif.Proofs.Act
import Verif.Props.Builder
import Verif.Props.CronCache
import Verif.Props.Clock
import Verif.Props.Free
import Verif.Props.Parallel
import Verif.Props.Forget
import Verif.Props.Process
import Verif.Props.Shell
import Verif.Props.Schedule
import Verif.Props.Rearm
import Verif.Props.OnTime
import Verif.Props.Keeps
import Verif.Props.Wheel
import Verif.Props.Count
import Verif.Props.Events
import Verif.Props.Sweep
import Verif.Props.Instances
import Verif.Props.Operations
import Verif.Props.Advance
import Verif.Props.Panic
import Verif.Props.Locks
import Verif.Props.Cron
import Verif.Props.ProcessTask
import Verif.Props.Fleet
import Verif.Props.Launch
import Verif.Props.Setters
import Verif.Props.Wait
import Verif.Props.Cancel
import Verif.Props.Pipes
import Verif.Spec.PipesLazy
import Verif.Props.PipesLazy
import Verif.Props.Alive
import Verif.Proofs.Asked
import Verif.Props.Deaf
import Verif.Props.Limited
import Verif.Props.Timeout
import Verif.Props.Memory
import Verif.Model.Body
import Verif.Spec.Body
import Verif.Proofs.Body
import Verif.Props.Body
import Verif.Spec.Fair
import Verif.Proofs.Fair
import Verif.Props.Fair
import Verif.Props.FairCourse
import Verif.Props.FairCalls
import Verif.Props.FairLimit
import Verif.Props.FairSteady
import Verif.Props.Death
import Verif.Spec.Sheet
import Verif.Proofs.Sheet
import Verif.Props.Sheet
import Verif.Props.SheetAll
import Verif.Props.SheetLive
import Verif.Spec.Counting
import Verif.Props.Counting
import Verif.Spec.Ghost
import Verif.Proofs.Forgotten
import Verif.Props.Ghost
import Verif.Model.Fine
import Verif.Proofs.Fine
import Verif.Props.Fine
import Verif.Props.FineGuards
import Verif.Spec.BodyFair
import Verif.Proofs.BodyFair
import Verif.Props.BodyFair
import Verif.Props.BodyFairCourse
import Verif.Spec.Removal
import Verif.Proofs.Removal
import Verif.Props.Removal
import Verif.Proofs.Advancement
import Verif.Props.Advancement
import Verif.Proofs.Updating
import Verif.Props.Updating
import Verif.Proofs.Slots
import Verif.Props.Slots
import Verif.Spec.Part
import Verif.Proofs.Part
import Verif.Proofs.PartEvents
import Verif.Proofs.PartRuns
import Verif.Proofs.PartCourse
import Verif.Props.Part
import Verif.Props.PartCourse
import Verif.Spec.Nap
import Verif.Props.Nap
import Verif.Proofs.Prompt
import Verif.Props.Prompt
import Verif.Spec.Certain
import Verif.Props.Certain
import Verif.Props.Fading
import Verif.Spec.Record
import Verif.Props.Record
import Verif.Props.Leak

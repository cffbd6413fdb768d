import Verif.Model.Service
import Verif.Test.Func
import Verif.Test.Unit
import Verif.Test.Machine
import Verif.Test.Commands
import Verif.Props.Utils
import Verif.Props.Tree
import Verif.Props.Engine
import Verif.Props.Start
import Verif.Props.Line
import Verif.Props.Printf
import Verif.Props.Printing
import Verif.Props.Builtin
import Verif.Props.Complete
import Verif.Props.Safe
import Verif.Props.Deinit
import Verif.Props.Own
import Verif.Props.Features
import Verif.Props.Terminal
import Verif.Props.Demo
import Verif.Props.Limits
import Verif.Props.Lines
import Verif.Props.Contract
import Verif.Props.Store
import Verif.Props.Host
import Verif.Model.Linux
import Verif.Spec.Deeds
import Verif.Spec.Linux
import Verif.Proof.Deeds
import Verif.Proof.Linux
import Verif.Props.Deeds
import Verif.Props.Linux
import Verif.Props.LinuxFiles
import Verif.Spec.Both
import Verif.Proof.Both
import Verif.Props.Both
import Verif.Spec.Screen
import Verif.Proof.Screen
import Verif.Props.Screen
import Verif.Spec.Notes
import Verif.Proof.Calm
import Verif.Props.Notes
import Verif.Spec.Effort
import Verif.Proof.Effort
import Verif.Props.Effort
import Verif.Props.Tab
import Verif.Props.Initialize
import Verif.Props.Place
import Verif.Spec.Width
import Verif.Proof.Width
import Verif.Props.Width
import Verif.Spec.Paths
import Verif.Proof.Paths
import Verif.Props.Paths
import Verif.Spec.Later
import Verif.Proof.Later
import Verif.Props.Later
import Verif.Props.Loose
import Verif.Spec.Lives
import Verif.Props.Lives
import Verif.Spec.Forget
import Verif.Proof.Forget
import Verif.Props.Forget
import Verif.Spec.Loop
import Verif.Proof.Lane
import Verif.Proof.Loop
import Verif.Props.Loop
import Verif.Spec.Reach
import Verif.Proof.Reach
import Verif.Props.Reach
import Verif.Proof.Wrap
import Verif.Proof.TabNul
import Verif.Proof.Drift
import Verif.Props.Full
import Verif.Props.Press
import Verif.Spec.Moment
import Verif.Proof.Moment
import Verif.Props.Moment
import Verif.Model.Life
import Verif.Spec.Life
import Verif.Proof.Life
import Verif.Props.Life
import Verif.Spec.Apps
import Verif.Proof.Apps
import Verif.Props.Apps
import Verif.Spec.Unseen
import Verif.Proof.Unseen
import Verif.Props.Unseen
import Verif.Proof.Rows
import Verif.Props.Rows
import Verif.Spec.AppsHost
import Verif.Props.AppsHost
import Verif.Spec.Torn
import Verif.Proof.Torn
import Verif.Props.Torn
import Verif.Spec.Memory
import Verif.Props.Memory
import Verif.Model.Getter
import Verif.Spec.Getter
import Verif.Proof.Getter
import Verif.Props.Getter
import Verif.Model.Nested
import Verif.Spec.Nested
import Verif.Proof.Nested
import Verif.Props.Nested
import Verif.Spec.Scribble
import Verif.Proof.Scribble
import Verif.Props.Scribble
import Verif.Proof.Rules
import Verif.Props.Rules

import Verif.Base.Dfs
import Verif.Base.Timestamp
import Verif.Slice.Props
import Verif.Slice.Line
import Verif.Slice.Order
import Verif.Slice.TextProps
import Verif.Slice.Strip
import Verif.Sched.Props
import Verif.Sched.GraphProps
import Verif.Sched.Examples
import Verif.Sched.Stale
import Verif.Sched.ExactSpec
import Verif.Sched.Exact
import Verif.Sched.ExactExamples
import Verif.Edges.Props
import Verif.Base.Assoc
import Verif.Registry.Props
import Verif.Registry.Position
import Verif.Registry.Rename
import Verif.Registry.ReactiveSpec
import Verif.Registry.Reactive
import Verif.ListNs.Props
import Verif.Memo.ValueProps
import Verif.Memo.ArraySpec
import Verif.Memo.ArrayProps
import Verif.Memo.RunProps
import Verif.Memo.Sets
import Verif.Memo.Reuse
import Verif.Sym.Props
import Verif.Propagate.Props
import Verif.Live.Main
import Verif.Live.Props
import Verif.Live.Wrong
import Verif.Live.Calls
import Verif.Live.Work
import Verif.Comm.DispatchProps
import Verif.Comm.DebounceProps
import Verif.Comm.PlaceholderProps
import Verif.Settings.Props
import Verif.Settings.Switch
import Verif.Interrupt.Props
import Verif.Literal.Unpack
import Verif.Lift.Props
import Verif.Dag.History
import Verif.Dag.Imports
import Verif.Scoped.Props
import Verif.Clock.Props
import Verif.Clock.Runs
import Verif.Store.Pull
import Verif.Store.Topo
import Verif.Client.Props
import Verif.Lookup.Props
import Verif.Output.Props
import Verif.Ref.Live
import Verif.Ref.Props
import Verif.Wait.Props
import Verif.Age.Witness
import Verif.Age.Total
import Verif.Ready.Props
import Verif.Ready.Hybrid
import Verif.Rval.Witness
import Verif.Annot.Args
import Verif.Annot.Stubs
import Verif.Bind.Witness
import Verif.Steps.Witness
import Verif.Frames.Witness
import Verif.Args.Model
import Verif.Args.Spec
import Verif.Args.Props
import Verif.Args.Witness
import Verif.Writes.Model
import Verif.Writes.Spec
import Verif.Writes.Props
import Verif.Writes.Witness
import Verif.Target.Model
import Verif.Target.Spec
import Verif.Target.Props
import Verif.Target.Witness
import Verif.Types.Model
import Verif.Types.Spec
import Verif.Types.Props
import Verif.Types.Witness
import Verif.Resync.Model
import Verif.Resync.Spec
import Verif.Resync.Props
import Verif.Resync.Witness
import Verif.Rebind.Model
import Verif.Rebind.Spec
import Verif.Rebind.Lemmas
import Verif.Rebind.Props
import Verif.Rebind.Witness
import Verif.Extern.Model
import Verif.Extern.Spec
import Verif.Extern.Lemmas
import Verif.Extern.Props
import Verif.Extern.Witness
import Verif.Extern.Later
import Verif.Chain.Model
import Verif.Chain.Spec
import Verif.Chain.Lemmas
import Verif.Chain.Props
import Verif.Chain.Witness
import Verif.Place.Model
import Verif.Place.Spec
import Verif.Place.Lemmas
import Verif.Place.Props
import Verif.Place.Witness
import Verif.Garbage.Model
import Verif.Garbage.Spec
import Verif.Garbage.Lemmas
import Verif.Garbage.Props
import Verif.Garbage.Witness
import Verif.React.Model
import Verif.React.Spec
import Verif.React.Lemmas
import Verif.React.Props
import Verif.React.Witness
import Verif.Pending.Model
import Verif.Pending.Spec
import Verif.Pending.Lemmas
import Verif.Pending.Props
import Verif.Pending.Witness
import Verif.Fails.Model
import Verif.Fails.Spec
import Verif.Fails.Lemmas
import Verif.Fails.Props
import Verif.Fails.When
import Verif.Fails.Witness
import Verif.Session.Model
import Verif.Session.Spec
import Verif.Session.Props
import Verif.Session.Witness
import Verif.Session.Groups
import Verif.Connect.Model
import Verif.Connect.Spec
import Verif.Connect.Props
import Verif.Connect.Witness
import Verif.Lambda.Model
import Verif.Lambda.Spec
import Verif.Lambda.Props
import Verif.Lambda.Witness
import Verif.Funct.Model
import Verif.Funct.Spec
import Verif.Funct.Props
import Verif.Funct.Witness
import Verif.Copy.Model
import Verif.Copy.Props
import Verif.Content.Model
import Verif.Content.Spec
import Verif.Content.Lemmas
import Verif.Content.Props
import Verif.Content.Links
import Verif.Content.Witness
import Verif.Widget.Model
import Verif.Widget.Spec
import Verif.Widget.Lemmas
import Verif.Widget.Props
import Verif.Widget.CodeLemmas
import Verif.Widget.Code
import Verif.Widget.Witness
import Verif.Listen.Model
import Verif.Listen.Spec
import Verif.Listen.Props
import Verif.Hold.Model
import Verif.Hold.Spec
import Verif.Hold.Lemmas
import Verif.Hold.OutLemmas
import Verif.Hold.Props
import Verif.Hold.Witness
import Verif.Versions.Model
import Verif.Versions.Spec
import Verif.Versions.Lemmas
import Verif.Versions.Rerun
import Verif.Versions.Hist
import Verif.Versions.Props
import Verif.Versions.More
import Verif.Versions.Witness
import Verif.Selfuse.Model
import Verif.Selfuse.Spec
import Verif.Selfuse.Props
import Verif.Selfuse.Witness
import Verif.Calls.Model
import Verif.Calls.Spec
import Verif.Calls.Props
import Verif.Calls.Second
import Verif.Calls.Witness
import Verif.Watch.Model
import Verif.Watch.Spec
import Verif.Watch.Props
import Verif.Watch.Witness
import Verif.Loops.Model
import Verif.Loops.Spec
import Verif.Loops.Lemmas
import Verif.Loops.Trace
import Verif.Loops.Props
import Verif.Loops.Witness
import Verif.Text.Model
import Verif.Text.Spec
import Verif.Text.Lemmas
import Verif.Text.Trip
import Verif.Text.Props
import Verif.Text.Witness
import Verif.Parts.Model
import Verif.Parts.Spec
import Verif.Parts.Props
import Verif.Parts.Witness
import Verif.Shown.Model
import Verif.Shown.Spec
import Verif.Shown.Lemmas
import Verif.Shown.Back
import Verif.Shown.Props
import Verif.Shown.Witness
import Verif.Inplace.Model
import Verif.Inplace.Spec
import Verif.Inplace.Lemmas
import Verif.Inplace.Sim
import Verif.Inplace.Props
import Verif.Inplace.Witness
import Verif.Hide.Model
import Verif.Hide.Spec
import Verif.Hide.Props
import Verif.Hide.Witness
import Verif.Paint.Model
import Verif.Paint.Spec
import Verif.Paint.Lemmas
import Verif.Paint.Props
import Verif.Paint.Witness
import Verif.Nest.Model
import Verif.Nest.Spec
import Verif.Nest.Lemmas
import Verif.Nest.Taken
import Verif.Nest.EdgeLemmas
import Verif.Nest.Props
import Verif.Nest.Witness
import Verif.Nest.Swept
import Verif.Nest.Outdated
import Verif.StubFile.Model
import Verif.StubFile.Spec
import Verif.StubFile.Lemmas
import Verif.StubFile.Session
import Verif.StubFile.Props
import Verif.StubFile.Witness
import Verif.Hover.Model
import Verif.Hover.Spec
import Verif.Hover.Lemmas
import Verif.Hover.Session
import Verif.Hover.Props
import Verif.Hover.Witness
import Verif.Lint.Model
import Verif.Lint.Spec
import Verif.Lint.Lemmas
import Verif.Lint.Session
import Verif.Lint.Props
import Verif.Lint.Witness
import Verif.Tracers.Model
import Verif.Tracers.Spec
import Verif.Tracers.Lemmas
import Verif.Tracers.Session
import Verif.Tracers.Props
import Verif.Tracers.Witness
import Verif.Around.Model
import Verif.Around.Spec
import Verif.Around.Lemmas
import Verif.Around.Props
import Verif.Around.Witness
import Verif.Recall.Model
import Verif.Recall.Spec
import Verif.Recall.Lemmas
import Verif.Recall.Props
import Verif.Recall.Witness
import Verif.Declare.Model
import Verif.Declare.Spec
import Verif.Declare.Lemmas
import Verif.Declare.Props
import Verif.Declare.Witness
import Verif.Saved.Model
import Verif.Saved.Spec
import Verif.Saved.Lemmas
import Verif.Saved.Session
import Verif.Saved.Inv
import Verif.Saved.Report
import Verif.Saved.Props
import Verif.Saved.Witness
import Verif.Imports.Model
import Verif.Imports.Spec
import Verif.Imports.Lemmas
import Verif.Imports.Elems
import Verif.Imports.Bridge
import Verif.Imports.Keys
import Verif.Imports.Props
import Verif.Imports.Witness
import Verif.Naming.Model
import Verif.Naming.Spec
import Verif.Naming.Lemmas
import Verif.Naming.Inv
import Verif.Naming.Props
import Verif.Naming.Witness
import Verif.Checked.Model
import Verif.Checked.Spec
import Verif.Checked.Lemmas
import Verif.Checked.Inv
import Verif.Checked.Good
import Verif.Checked.Props
import Verif.Checked.Witness
import Verif.Tagged.Model
import Verif.Tagged.Spec
import Verif.Tagged.Lemmas
import Verif.Tagged.Props
import Verif.Tagged.Witness
import Verif.Assigned.Model
import Verif.Assigned.Spec
import Verif.Assigned.Props
import Verif.Assigned.Witness
import Verif.Told.Model
import Verif.Told.Spec
import Verif.Told.Lemmas
import Verif.Told.Props
import Verif.Told.Witness
import Verif.Matchers.Model
import Verif.Matchers.Spec
import Verif.Matchers.Props
import Verif.Matchers.Witness
import Verif.Loading.Model
import Verif.Loading.Spec
import Verif.Loading.Lemmas
import Verif.Loading.Props
import Verif.Loading.Witness
import Verif.Lifted.Model
import Verif.Lifted.Spec
import Verif.Lifted.Lemmas
import Verif.Lifted.Props
import Verif.Lifted.Witness
import Verif.Implicit.Model
import Verif.Implicit.Spec
import Verif.Implicit.Lemmas
import Verif.Implicit.Props
import Verif.Implicit.Witness
import Verif.Redirect.Model
import Verif.Redirect.Spec
import Verif.Redirect.Lemmas
import Verif.Redirect.Props
import Verif.Redirect.Witness
import Verif.Failing.Model
import Verif.Failing.Spec
import Verif.Failing.Props
import Verif.Failing.Witness
import Verif.Callee.Model
import Verif.Callee.Spec
import Verif.Callee.Lemmas
import Verif.Callee.Props
import Verif.Callee.Witness
import Verif.Resume.Model
import Verif.Resume.Spec
import Verif.Resume.Lemmas
import Verif.Resume.Props
import Verif.Resume.Witness
import Verif.Resend.Model
import Verif.Resend.Spec
import Verif.Resend.Props
import Verif.Resend.Witness
import Verif.Rounds.Model
import Verif.Rounds.Spec
import Verif.Rounds.Props
import Verif.Rounds.Witness
import Verif.Addons.Model
import Verif.Addons.Spec
import Verif.Addons.Props
import Verif.Addons.Witness
import Verif.Embed.Model
import Verif.Embed.Spec
import Verif.Embed.Props
import Verif.Embed.Witness
import Verif.Bumps.Model
import Verif.Bumps.Spec
import Verif.Bumps.Props
import Verif.Bumps.Witness
import Verif.Dirty.Model
import Verif.Dirty.Spec
import Verif.Dirty.Props
import Verif.Dirty.Witness
import Verif.Origin.Model
import Verif.Origin.Spec
import Verif.Origin.Props
import Verif.Origin.Witness
import Verif.Phantom.Model
import Verif.Phantom.Spec
import Verif.Phantom.Props
import Verif.Phantom.Witness
import Verif.Inherit.Model
import Verif.Inherit.Spec
import Verif.Inherit.Props
import Verif.Inherit.Witness
import Verif.Span.Model
import Verif.Span.Spec
import Verif.Span.Props
import Verif.Span.Witness
import Verif.Unseen.Model
import Verif.Unseen.Spec
import Verif.Unseen.Props
import Verif.Unseen.Witness
import Verif.Header.Model
import Verif.Header.Spec
import Verif.Header.Props
import Verif.Header.Witness
import Verif.Asked.Model
import Verif.Asked.Spec
import Verif.Asked.Props
import Verif.Asked.Witness
import Verif.Waiters.Model
import Verif.Waiters.Spec
import Verif.Waiters.Props
import Verif.Waiters.Witness

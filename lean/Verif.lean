import Verif.Props.Bit
import Verif.Props.Place
import Verif.Props.Precisely
import Verif.Props.Frame
import Verif.Props.FrameSafe
import Verif.Props.Undo
import Verif.Props.Event
import Verif.Props.Query
import Verif.Props.Room
import Verif.Props.Decode
import Verif.Props.Encode
import Verif.Props.Move
import Verif.Props.EndToEnd
import Verif.Spec.Tracked
import Verif.Props.Xyz
import Verif.Spec.Setup
import Verif.Props.Setup
import Verif.Spec.System
import Verif.Props.System
import Verif.Spec.Update
import Verif.Props.Update
import Verif.Spec.Rewind
import Verif.Props.Rewind
import Verif.Spec.Score
import Verif.Props.Score
import Verif.Spec.Inert
import Verif.Props.Inert
import Verif.Spec.Single
import Verif.Props.Single
import Verif.Spec.Overlay
import Verif.Props.Overlay
import Verif.Spec.Dialog
import Verif.Props.Dialog
import Verif.Spec.Duel
import Verif.Props.Duel
import Verif.Props.Incomplete
import Verif.Spec.Loose
import Verif.Props.Accepted
import Verif.Props.RoomMore
import Verif.Props.RoomRules
import Verif.Spec.Replay
import Verif.Props.Replay
import Verif.Spec.Exact
import Verif.Props.Exact
import Verif.Spec.Table
import Verif.Props.Table
import Verif.Props.Hostile
import Verif.Spec.Constants
import Verif.Props.Constants
import Verif.Spec.Range
import Verif.Props.Range
import Verif.Spec.Release
import Verif.Props.Release
import Verif.Spec.ReleaseUndo
import Verif.Props.ReleaseUndo
import Verif.Spec.ReleaseServer
import Verif.Props.ReleaseServer
import Verif.Props.ReleaseFeed
import Verif.Props.ReleaseCodec
import Verif.Spec.ReleaseRoom
import Verif.Props.ReleaseRoom
import Verif.Spec.Protobuf
import Verif.Spec.Network
import Verif.Props.Network
import Verif.Props.NetworkRoom
import Verif.Spec.UndoableObjects
import Verif.Props.UndoableObjects
import Verif.Spec.FrameObjects
import Verif.Props.FrameObjects
import Verif.Spec.FrameCopies
import Verif.Props.FrameCopies
import Verif.Props.Size
import Verif.Spec.Conserve
import Verif.Props.Conserve
import Verif.Spec.WireAnswer
import Verif.Props.WireAnswer
import Verif.Spec.ToThePoint
import Verif.Props.ToThePoint
import Verif.Spec.Taken
import Verif.Props.Taken
import Verif.Spec.Blind
import Verif.Props.Blind
import Verif.Spec.UndoQuery
import Verif.Props.UndoQuery
import Verif.Spec.Gist
import Verif.Props.Gist
import Verif.Props.GistQuery
import Verif.Tests.Basic
import Verif.Tests.Frame
import Verif.Tests.Query
import Verif.Tests.Room
import Verif.Spec.Apart
import Verif.Props.Apart
import Verif.Spec.Mirror
import Verif.Props.Mirror
import Verif.Spec.Counts
import Verif.Props.Counts
import Verif.Props.MirrorDuel
import Verif.Spec.AnyContext
import Verif.Props.AnyContext
import Verif.Spec.Screen
import Verif.Props.Screen
import Verif.Spec.CatchUp
import Verif.Props.CatchUp
import Verif.Props.CatchUpSize
import Verif.Spec.Handover
import Verif.Props.Handover
import Verif.Spec.Telling
import Verif.Props.Telling
import Verif.Spec.Branch
import Verif.Props.Branch
import Verif.Spec.NextDuel
import Verif.Props.NextDuel
import Verif.Spec.Pace
import Verif.Props.Pace
import Verif.Props.Least
import Verif.Spec.RoomOrder
import Verif.Props.RoomOrder
import Verif.Spec.Trackable
import Verif.Props.Trackable
import Verif.Spec.Rearrange
import Verif.Props.Rearrange
import Verif.Spec.RoomStates
import Verif.Props.RoomStates
import Verif.Spec.Shown
import Verif.Props.Shown
import Verif.Spec.UndoableCopies
import Verif.Props.UndoableCopies
import Verif.Spec.FrameNames
import Verif.Props.FrameLeaks
import Verif.Spec.RoomArena
import Verif.Props.RoomArena
import Verif.Spec.Notes
import Verif.Props.Notes
import Verif.Spec.Orphans
import Verif.Props.Orphans
import Verif.Spec.Piled
import Verif.Props.Piled
import Verif.Spec.Stale
import Verif.Props.Stale
import Verif.Spec.Noticed
import Verif.Props.Noticed
import Verif.Spec.Parts
import Verif.Props.Parts
import Verif.Spec.Unnoticed
import Verif.Props.Unnoticed
import Verif.Spec.Effort
import Verif.Props.Effort
import Verif.Model.Heap
import Verif.Spec.Heap
import Verif.Props.Heap
import Verif.Spec.Fair
import Verif.Props.Fair
import Verif.Spec.RoomNames
import Verif.Props.RoomNames
import Verif.Spec.Remembered
import Verif.Props.Remembered
import Verif.Props.RememberedOdd
import Verif.Spec.Kept
import Verif.Props.Kept
import Verif.Spec.Variants
import Verif.Props.Variants
import Verif.Spec.Hearing
import Verif.Props.Hearing
import Verif.Spec.RoomReach
import Verif.Props.RoomReach
import Verif.Spec.Recoded
import Verif.Props.Recoded
import Verif.Spec.RecodedDesk
import Verif.Props.RecodedDesk
import Verif.Spec.Revalued
import Verif.Props.Revalued
import Verif.Spec.Sealed
import Verif.Props.Sealed
import Verif.Spec.QuestionKind
import Verif.Props.QuestionKind

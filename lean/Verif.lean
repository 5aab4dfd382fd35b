import Verif.Model.Prelude
import Verif.Model.Common
import Verif.Model.Color
import Verif.Model.PieceKind
import Verif.Model.Square
import Verif.Model.Piece
import Verif.Model.Hand
import Verif.Model.Move
import Verif.Model.Bitboard
import Verif.Model.GameResolution
import Verif.Model.BuildConsts
import Verif.Model.Mem
import Verif.Model.Position
import Verif.Model.Legality
import Verif.Model.Derive
import Verif.Model.PartialOrd
import Verif.Model.CApi
import Verif.Model.NoStd
import Verif.Model.Heap
import Verif.Model.Layout
import Verif.Model.Boxed
import Verif.Model.Recorder
import Verif.Model.Header
import Verif.Model.Debug
import Verif.Model.Iter
import Verif.Model.Refs
import Verif.Model.CTest
import Verif.Model.Features
import Verif.Model.BuildScript
import Verif.Model.Bytes
import Verif.Model.RawCall
import Verif.Model.RawAll
import Verif.Spec.Alloc
import Verif.Spec.Attack
import Verif.Spec.Basic
import Verif.Spec.Bitboard
import Verif.Spec.Boxed
import Verif.Spec.BuildScript
import Verif.Spec.Bytes
import Verif.Spec.CApi
import Verif.Spec.CStruct
import Verif.Spec.Client
import Verif.Spec.Debug
import Verif.Spec.Decode
import Verif.Spec.Edit
import Verif.Spec.Features
import Verif.Spec.Generate
import Verif.Spec.Header
import Verif.Spec.Heap
import Verif.Spec.Increment
import Verif.Spec.Iter
import Verif.Spec.Machine
import Verif.Spec.Mirror
import Verif.Spec.Order
import Verif.Spec.OrderKey
import Verif.Spec.Parse
import Verif.Spec.Position
import Verif.Spec.Progress
import Verif.Spec.RawAll
import Verif.Spec.RawCall
import Verif.Spec.RawStruct
import Verif.Spec.Record
import Verif.Spec.Recorder
import Verif.Spec.Referee
import Verif.Spec.Reorder
import Verif.Spec.Rules
import Verif.Spec.RustText
import Verif.Spec.Setup
import Verif.Spec.Sfen
import Verif.Spec.Symmetry
import Verif.Spec.Takeback
import Verif.Spec.Text
import Verif.Spec.Usi
import Verif.Spec.Wire
import Verif.Lemmas.Attack
import Verif.Lemmas.Bitboard
import Verif.Lemmas.BitboardIter
import Verif.Lemmas.BitboardShift
import Verif.Lemmas.BuildScript
import Verif.Lemmas.Bytes
import Verif.Lemmas.Count
import Verif.Lemmas.Debug
import Verif.Lemmas.Features
import Verif.Lemmas.Hand
import Verif.Lemmas.Layout
import Verif.Lemmas.MakeMove
import Verif.Lemmas.Move
import Verif.Lemmas.Order
import Verif.Lemmas.Piece
import Verif.Lemmas.Position
import Verif.Lemmas.Res
import Verif.Lemmas.Rules
import Verif.Lemmas.Sfen
import Verif.Lemmas.SfenBound
import Verif.Lemmas.Square
import Verif.Lemmas.Startpos
import Verif.Lemmas.Symmetry
import Verif.Lemmas.Writer
import Verif.Props.Alloc
import Verif.Props.Attack
import Verif.Props.Bitboard
import Verif.Props.BitboardAlgebra
import Verif.Props.Boxed
import Verif.Props.BuildScript
import Verif.Props.Bytes
import Verif.Props.CApi
import Verif.Props.CStruct
import Verif.Props.CTest
import Verif.Props.Checker
import Verif.Props.Client
import Verif.Props.Debug
import Verif.Props.Decode
import Verif.Props.Edit
import Verif.Props.Enumerate
import Verif.Props.Explain
import Verif.Props.Features
import Verif.Props.Game
import Verif.Props.Generate
import Verif.Props.Hand
import Verif.Props.Header
import Verif.Props.Heap
import Verif.Props.Increment
import Verif.Props.Iter
import Verif.Props.Legality
import Verif.Props.Machine
import Verif.Props.Memory
import Verif.Props.Mirror
import Verif.Props.Move
import Verif.Props.Order
import Verif.Props.OrderKey
import Verif.Props.Piece
import Verif.Props.Position
import Verif.Props.Progress
import Verif.Props.RawArgs
import Verif.Props.RawBuilds
import Verif.Props.RawCall
import Verif.Props.RawMoves
import Verif.Props.RawPanic
import Verif.Props.RawStruct
import Verif.Props.Reachable
import Verif.Props.Record
import Verif.Props.Recorder
import Verif.Props.Referee
import Verif.Props.Refs
import Verif.Props.Reorder
import Verif.Props.Repetition
import Verif.Props.Rules
import Verif.Props.Sfen
import Verif.Props.Square
import Verif.Props.Symmetry
import Verif.Props.Takeback
import Verif.Props.Text
import Verif.Props.Wire
